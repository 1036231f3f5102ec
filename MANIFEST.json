{
 "claims": [
  {
   "property": "C01",
   "status": "proved",
   "theorems": [
    "Nubhlight.FluxCT.C01_ct_consistent",
    "Nubhlight.FluxCT.C01_divb_preserved"
   ],
   "note": "Exact arithmetic over any field; all grids, fluxes, histories."
  },
  {
   "property": "C02",
   "status": "proved",
   "theorems": [
    "Nubhlight.Conserve.C02_budget",
    "Nubhlight.Conserve.C02_periodic_conserved",
    "Nubhlight.Conserve.C02_rank_interface"
   ],
   "note": "Exact arithmetic over any field."
  },
  {
   "property": "C03",
   "status": "proved",
   "theorems": [
    "Nubhlight.Reconstruct.C03_consistent",
    "Nubhlight.Reconstruct.C03_speed_bounds",
    "Nubhlight.Reconstruct.C03_mirror",
    "Nubhlight.Reconstruct.C03_dissipation",
    "Nubhlight.Reconstruct.C09_courant"
   ],
   "note": "Ordered-field arithmetic; states enter through their fluxes and speeds."
  },
  {
   "property": "C04",
   "status": "proved",
   "theorems": [
    "Nubhlight.Reconstruct.C04_faces_between",
    "Nubhlight.Reconstruct.C04_faces_positive",
    "Nubhlight.Reconstruct.C04_flat_at_extremum",
    "Nubhlight.Reconstruct.C04_linear_exact",
    "Nubhlight.Reconstruct.C04_linear_mc",
    "Nubhlight.Reconstruct.C04_mirror"
   ],
   "note": ""
  },
  {
   "property": "C05",
   "status": "proved",
   "theorems": [
    "Nubhlight.Reconstruct.C05_face_in_candidate_range",
    "Nubhlight.Reconstruct.C05_face_in_candidate_range_left",
    "Nubhlight.Reconstruct.C05_mirror",
    "Nubhlight.Reconstruct.C05_quadratic_exact",
    "Nubhlight.Reconstruct.C05_shift",
    "Nubhlight.Reconstruct.C05_weights_left",
    "Nubhlight.Reconstruct.C05_weights_right"
   ],
   "note": ""
  },
  {
   "property": "C06",
   "status": "partial",
   "theorems": [
    "Nubhlight.Reconstruct.C06_full_false",
    "Nubhlight.Reconstruct.C06_linear_exact",
    "Nubhlight.Reconstruct.C06_median_spec",
    "Nubhlight.Reconstruct.C06_minmod_spec",
    "Nubhlight.Reconstruct.C06_mp5_monotone_partial",
    "Nubhlight.Reconstruct.C06_mp5_overshoots",
    "Nubhlight.Reconstruct.C06_zero_tolerance_full"
   ],
   "note": "Full claim is false for the code (absolute acceptance tolerance 1e-12): C06_mp5_overshoots, C06_full_false. Proved with slack 1e-6."
  },
  {
   "property": "C07",
   "status": "proved",
   "theorems": [
    "Nubhlight.Reconstruct.C07_uniform",
    "Nubhlight.Reconstruct.C07_unsupported_exits"
   ],
   "note": ""
  },
  {
   "property": "C08",
   "status": "partial",
   "theorems": [
    "Nubhlight.TimeLoop.C08_first_step_overshoots",
    "Nubhlight.TimeLoop.C08_growth",
    "Nubhlight.TimeLoop.C08_monotone_no_overshoot_partial",
    "Nubhlight.TimeLoop.C08_terminates"
   ],
   "note": "The initial step is never clipped to the final time, so a run whose first step exceeds tf overshoots: C08_first_step_overshoots. Everything else proved."
  },
  {
   "property": "C09",
   "status": "proved",
   "theorems": [
    "Nubhlight.Reconstruct.C09_courant"
   ],
   "note": ""
  },
  {
   "property": "C10",
   "status": "proved",
   "theorems": [
    "Nubhlight.Fluid.C10_normalised",
    "Nubhlight.Fluid.C10_raise_lower",
    "Nubhlight.Fluid.C10_tolerance"
   ],
   "note": "Over the reals."
  },
  {
   "property": "C11",
   "status": "partial",
   "theorems": [
    "Nubhlight.Fluid.C11_completion_false",
    "Nubhlight.Fluid.C11_roundtrip_partial",
    "Nubhlight.Fluid.C11_roundtrip_ucon",
    "Nubhlight.Fluid.C11_ut_calc_value"
   ],
   "note": "Round trips proved; the completion of a coordinate 3-velocity is wrong in the code (sign in ut_calc_3vel): C11_ut_calc_value, C11_completion_false."
  },
  {
   "property": "C12",
   "status": "proved",
   "theorems": [
    "Nubhlight.Fluid.C12_orthogonal_strength",
    "Nubhlight.Fluid.C12_state"
   ],
   "note": ""
  },
  {
   "property": "C13",
   "status": "proved",
   "theorems": [
    "Nubhlight.Fluid.C13_eigenvector",
    "Nubhlight.Fluid.C13_symmetric",
    "Nubhlight.Fluid.C13_trace"
   ],
   "note": ""
  },
  {
   "property": "C14",
   "status": "proved",
   "theorems": [
    "Nubhlight.Fluid.C14_gamma_law",
    "Nubhlight.Fluid.C14_general",
    "Nubhlight.Fluid.C14_round_trip"
   ],
   "note": "Over the reals; any consistent equation of state in C14_general, gamma law exact up to the density offset SMALL in C14_gamma_law, end-to-end in C14_round_trip."
  },
  {
   "property": "C15",
   "status": "proved",
   "theorems": [
    "Nubhlight.Fluid.C15_iterates",
    "Nubhlight.Fluid.C15_last_iterate_discarded",
    "Nubhlight.Fluid.C15_outcomes"
   ],
   "note": "Every equation of state as a parameter; NaN not modelled."
  },
  {
   "property": "C16",
   "status": "partial",
   "theorems": [
    "Nubhlight.Fluid.C16_ceiling_and_field",
    "Nubhlight.Fluid.C16_entropy_cap_breaks_floor",
    "Nubhlight.Fluid.C16_floor_values",
    "Nubhlight.Fluid.C16_floors_partial",
    "Nubhlight.Fluid.C16_positive"
   ],
   "note": "Velocity ceiling, field preservation and positivity proved; the energy floor is proved without electrons and when recovery is not re-run successfully on a weakly magnetised floored zone. With electrons the entropy cap lowers the internal energy below its floor: C16_entropy_cap_breaks_floor."
  },
  {
   "property": "C17",
   "status": "proved",
   "theorems": [
    "Nubhlight.FixupUtoprim.C17_between",
    "Nubhlight.FixupUtoprim.C17_bounds",
    "Nubhlight.FixupUtoprim.C17_mean",
    "Nubhlight.FixupUtoprim.C17_outcome",
    "Nubhlight.FixupUtoprim.C17_usable"
   ],
   "note": "The per-zone fix-up is a parameter; its side effect of marking a zone with flag -333 is not modelled."
  },
  {
   "property": "C18",
   "status": "partial",
   "theorems": [
    "Nubhlight.Bounds.C18_active_unchanged",
    "Nubhlight.Bounds.C18_ghosts_partial",
    "Nubhlight.Bounds.C18_supported",
    "Nubhlight.Bounds.C18_upper_azimuthal_outflow",
    "Nubhlight.Bounds.C18_upper_azimuthal_outflow_false"
   ],
   "note": "Ghost values proved for every boundary kind, decomposition and state except outflow at the upper azimuthal face, where the code copies the first instead of the last active zone: C18_upper_azimuthal_outflow_false."
  },
  {
   "property": "C19",
   "status": "partial",
   "theorems": [
    "Nubhlight.Inflow.C19_inner_partial",
    "Nubhlight.Inflow.C19_mass_flux",
    "Nubhlight.Inflow.C19_poles",
    "Nubhlight.Inflow.C19_tiny_inflow",
    "Nubhlight.Inflow.C19_unchanged",
    "Nubhlight.Inflow.C19_zero_partial"
   ],
   "note": "Inner boundary proved; the outer one only for subluminal transverse motion. A normal velocity with square below 1e-13 can keep an inflow: C19_tiny_inflow."
  },
  {
   "property": "C20",
   "status": "proved",
   "theorems": [
    "Nubhlight.Bounds.C20_axis_symmetry",
    "Nubhlight.Bounds.C20_code",
    "Nubhlight.Bounds.C20_equatorial_symmetry",
    "Nubhlight.Bounds.C20_mirror_index"
   ],
   "note": ""
  },
  {
   "property": "C21",
   "status": "partial",
   "theorems": [
    "Nubhlight.RootFind.C21_accurate",
    "Nubhlight.RootFind.C21_accurate_checked",
    "Nubhlight.RootFind.C21_fail",
    "Nubhlight.RootFind.C21_root",
    "Nubhlight.RootFind.C21_same_sign_may_succeed",
    "Nubhlight.RootFind.C21_terminates"
   ],
   "note": "Termination, accuracy and the root for continuous functions proved, and failure implies end values strictly on one side of the target. The converse clause (same sign forces failure) is false of the code: C21_same_sign_may_succeed."
  },
  {
   "property": "C22",
   "status": "partial",
   "theorems": [
    "Nubhlight.RootFind.C22_affine",
    "Nubhlight.RootFind.C22_bracketed",
    "Nubhlight.RootFind.C22_full_false",
    "Nubhlight.RootFind.C22_secant_leaves_interval",
    "Nubhlight.RootFind.C22_success_partial",
    "Nubhlight.RootFind.C22_terminates"
   ],
   "note": "The secant result is never checked against the search interval: C22_secant_leaves_interval, C22_full_false."
  },
  {
   "property": "C23",
   "status": "proved",
   "theorems": [
    "Nubhlight.Util.C23_empty",
    "Nubhlight.Util.C23_index",
    "Nubhlight.Util.C23_index_sorted",
    "Nubhlight.Util.C23_max",
    "Nubhlight.Util.C23_median",
    "Nubhlight.Util.C23_median_unbiased",
    "Nubhlight.Util.C23_min"
   ],
   "note": ""
  },
  {
   "property": "C24",
   "status": "partial",
   "theorems": [
    "Nubhlight.Util.C24_above",
    "Nubhlight.Util.C24_below",
    "Nubhlight.Util.C24_between_partial",
    "Nubhlight.Util.C24_cell_partial",
    "Nubhlight.Util.C24_full_false",
    "Nubhlight.Util.C24_linear_partial",
    "Nubhlight.Util.C24_node_partial",
    "Nubhlight.Util.C24_upper_end_out_of_table"
   ],
   "note": "A query exactly at the upper end reads past the table: C24_upper_end_out_of_table, C24_full_false."
  },
  {
   "property": "C25",
   "status": "proved",
   "theorems": [
    "Nubhlight.Metric.C25_adjugate",
    "Nubhlight.Metric.C25_determinant",
    "Nubhlight.Metric.C25_geometry",
    "Nubhlight.Metric.C25_inverse",
    "Nubhlight.Metric.C25_succeeds"
   ],
   "note": ""
  },
  {
   "property": "C26",
   "status": "partial",
   "theorems": [
    "Nubhlight.Metric.C26_bl_det",
    "Nubhlight.Metric.C26_bl_inverse",
    "Nubhlight.Coord.C26_cartesian_derivative",
    "Nubhlight.Coord.C26_cartesian_partial",
    "Nubhlight.Coord.C26_full_false",
    "Nubhlight.Coord.C26_jacobian",
    "Nubhlight.Coord.C26_jacobian_inverse_partial",
    "Nubhlight.Coord.C26_jacobian_regularised_partial",
    "Nubhlight.Metric.C26_ks_det",
    "Nubhlight.Metric.C26_lorentzian_det",
    "Nubhlight.Metric.C26_symmetric",
    "Nubhlight.Metric.C26_transform_det"
   ],
   "note": "Metric clauses proved; forward Jacobians are the derivatives of the maps. The backward Jacobians are exact inverses only for a zero regularising constant: C26_full_false, with exact deviation for jac_harm_to_bl in C26_jacobian_regularised_partial; the deviation of jac_bl_to_cart is not bounded."
  },
  {
   "property": "C27",
   "status": "proved",
   "theorems": [
    "Nubhlight.Metric.C27_compatible",
    "Nubhlight.Metric.C27_exact_quadratic",
    "Nubhlight.Metric.C27_minkowski",
    "Nubhlight.Metric.C27_symmetric"
   ],
   "note": ""
  },
  {
   "property": "C28",
   "status": "proved",
   "theorems": [
    "Nubhlight.Current.C28_faraday",
    "Nubhlight.Current.C28_sign",
    "Nubhlight.Current.C28_symbol",
    "Nubhlight.Current.C28_tensor"
   ],
   "note": ""
  },
  {
   "property": "C29",
   "status": "partial",
   "theorems": [
    "Nubhlight.Tetrad.C29_degenerate",
    "Nubhlight.Tetrad.C29_null_cov",
    "Nubhlight.Tetrad.C29_null_false",
    "Nubhlight.Tetrad.C29_null_outside",
    "Nubhlight.Tetrad.C29_null_partial",
    "Nubhlight.Tetrad.C29_orthonormal",
    "Nubhlight.Tetrad.C29_round_trip",
    "Nubhlight.Tetrad.C29_success"
   ],
   "note": "Orthonormality and round trip hold whenever construction reports success; success can fail by division by zero when a trial vector becomes parallel to the previous ones (C29_degenerate). The null renormalisation is exact only where g_00 < 0 (C29_null_partial) and returns a non-null vector in an ergosphere (C29_null_false)."
  },
  {
   "property": "C30",
   "status": "proved",
   "theorems": [
    "Nubhlight.Decomp.C30_box",
    "Nubhlight.Decomp.C30_boxes",
    "Nubhlight.Decomp.C30_centre",
    "Nubhlight.Decomp.C30_faces",
    "Nubhlight.Decomp.C30_upper_edge"
   ],
   "note": ""
  },
  {
   "property": "C31",
   "status": "proved",
   "theorems": [
    "Nubhlight.Eos.C31_floors",
    "Nubhlight.Eos.C31_inverse",
    "Nubhlight.Eos.C31_sound_derivative",
    "Nubhlight.Eos.C31_sound_speed",
    "Nubhlight.Eos.C31_values"
   ],
   "note": ""
  },
  {
   "property": "C32",
   "status": "partial",
   "theorems": [
    "Nubhlight.Eos.C32_answers_partial",
    "Nubhlight.Eos.C32_full_false",
    "Nubhlight.Eos.C32_sound_speed",
    "Nubhlight.Eos.C32_sound_superluminal"
   ],
   "note": "With the polytropic equation of state the adiabatic constant is returned uninitialised and the pressure inversion exits (macro typos in the dispatch): C32_full_false; the polytropic sound speed is below light exactly for the states in C32_sound_speed and can exceed it: C32_sound_superluminal."
  },
  {
   "property": "C33",
   "status": "partial",
   "theorems": [
    "Nubhlight.EosTable.C33_between_partial",
    "Nubhlight.EosTable.C33_full_false",
    "Nubhlight.EosTable.C33_init",
    "Nubhlight.EosTable.C33_lookup_partial",
    "Nubhlight.EosTable.C33_nodes_partial",
    "Nubhlight.EosTable.C33_upper_edge_out_of_table"
   ],
   "note": "All queries except a density exactly at the upper edge, where entries outside the table are read: C33_upper_edge_out_of_table, C33_full_false."
  },
  {
   "property": "C34",
   "status": "partial",
   "theorems": [
    "Nubhlight.EosTable.C34_actual_partial",
    "Nubhlight.EosTable.C34_fill",
    "Nubhlight.EosTable.C34_full_false",
    "Nubhlight.EosTable.C34_nodes_partial"
   ],
   "note": "An unparenthesised index macro makes the lookup use the wrong neighbours: C34_full_false; what it does compute is C34_actual_partial. Filling the tables is correct: C34_fill."
  },
  {
   "property": "C35",
   "status": "partial",
   "theorems": [
    "Nubhlight.EosTable.C35_clamp",
    "Nubhlight.EosTable.C35_clamp_bounds",
    "Nubhlight.EosTable.C35_clamp_density",
    "Nubhlight.EosTable.C35_clamp_log",
    "Nubhlight.EosTable.C35_full_false",
    "Nubhlight.EosTable.C35_log_energy",
    "Nubhlight.EosTable.C35_monotone_partial",
    "Nubhlight.EosTable.C35_specific_energy"
   ],
   "note": "Everything but monotonicity, which fails within 1e-12 of the upper edge: C35_full_false; monotone up to that offset: C35_monotone_partial. catch_var_2d needs bounds more than 2e-12 apart."
  },
  {
   "property": "C36",
   "status": "proved",
   "theorems": [
    "Nubhlight.Electrons.C36_fraction",
    "Nubhlight.Electrons.C36_heating",
    "Nubhlight.Electrons.C36_idempotent",
    "Nubhlight.Electrons.C36_init",
    "Nubhlight.Electrons.C36_limits",
    "Nubhlight.Electrons.C36_linear",
    "Nubhlight.Electrons.C36_magnetised",
    "Nubhlight.Electrons.C36_unchanged"
   ],
   "note": "Energy form of the heating law for equal densities (C36_heating), linear form for all (C36_linear)."
  },
  {
   "property": "C37",
   "status": "proved",
   "theorems": [
    "Nubhlight.PhotonList.C37_conserved",
    "Nubhlight.PhotonList.C37_faults"
   ],
   "note": ""
  },
  {
   "property": "C38",
   "status": "partial",
   "theorems": [
    "Nubhlight.PhotonBounds.C38_decision",
    "Nubhlight.PhotonBounds.C38_exit",
    "Nubhlight.PhotonList.C38_merge",
    "Nubhlight.PhotonList.C38_partition",
    "Nubhlight.PhotonBounds.C38_recorded_removed",
    "Nubhlight.PhotonList.C38_sorting",
    "Nubhlight.PhotonBounds.C38_wrap",
    "Nubhlight.PhotonBounds.C38_wrap_interp",
    "Nubhlight.PhotonBounds.C38_wrap_once",
    "Nubhlight.PhotonBounds.C38_wrap_rigid"
   ],
   "note": "Traversal, decision, shift and counters hold; two points of the statement do not: a recorded particle is counted in the loss counter as well (C38_recorded_removed), and the shift is applied once, so a particle further out than one domain length stays outside (C38_wrap_once)."
  },
  {
   "property": "C39",
   "status": "partial",
   "theorems": [
    "Nubhlight.PhotonSync.C39_arrives",
    "Nubhlight.PhotonList.C39_balance",
    "Nubhlight.PhotonList.C39_chunks",
    "Nubhlight.PhotonSync.C39_corner_wrong",
    "Nubhlight.PhotonSync.C39_delivered",
    "Nubhlight.PhotonSync.C39_direction_partial",
    "Nubhlight.PhotonSync.C39_exchange",
    "Nubhlight.PhotonSync.C39_full_false",
    "Nubhlight.PhotonList.C39_threads"
   ],
   "note": "Delivered exactly once and spread over threads for all grids; direction holds except for particles leaving in the first two directions and across a periodic edge in the third (C39_corner_wrong, C39_full_false). Assumes the periodic directions of ranks and radiation agree (Consistent)."
  },
  {
   "property": "C40",
   "status": "partial",
   "theorems": [
    "Nubhlight.PhotonSync.C40_full_false",
    "Nubhlight.PhotonSync.C40_home_partial",
    "Nubhlight.PhotonSync.C40_restart"
   ],
   "note": "Holds for particles of the domain (C40_home_partial); beyond a periodic edge more rounds may be needed (C40_full_false). The restart procedure performs enough rounds in all cases (C40_restart)."
  },
  {
   "property": "C41",
   "status": "proved",
   "theorems": [
    "Nubhlight.Push.C41_force",
    "Nubhlight.Push.C41_history",
    "Nubhlight.Push.C41_minkowski",
    "Nubhlight.Push.C41_mks",
    "Nubhlight.Push.C41_norm",
    "Nubhlight.Push.C41_push",
    "Nubhlight.Push.C41_reach",
    "Nubhlight.Push.C41_skip_sound"
   ],
   "note": "Coordinates of a metric that does not depend on them are skipped by the code; C41_skip_sound shows that the skipped force is zero. Kcon follows from Kcov at the new position."
  },
  {
   "property": "C42",
   "status": "partial",
   "theorems": [
    "Nubhlight.Push.C42_full_false",
    "Nubhlight.Push.C42_last_attempt_wasted",
    "Nubhlight.Push.C42_subdivision_partial"
   ],
   "note": "The last level is never accepted: C42_last_attempt_wasted, C42_full_false. For the others the claim holds."
  },
  {
   "property": "C43",
   "status": "partial",
   "theorems": [
    "Nubhlight.Push.C43_extrapolates",
    "Nubhlight.Push.C43_full_false",
    "Nubhlight.Push.C43_late",
    "Nubhlight.Push.C43_segment_partial",
    "Nubhlight.Push.C43_stored",
    "Nubhlight.Push.C43_time",
    "Nubhlight.Push.C43_unset_history",
    "Nubhlight.Push.C43_window"
   ],
   "note": "Exact at stored times and always at the requested time; on the segment for times inside the history; no check against times before the oldest state (C43_full_false), a relative window of 1e-50 below the middle time (C43_window), and packets created in the step have no history (C43_unset_history)."
  },
  {
   "property": "C44",
   "status": "partial",
   "theorems": [
    "Nubhlight.Emission.C44_gas",
    "Nubhlight.Emission.C44_killed",
    "Nubhlight.Emission.C44_lepton_defect",
    "Nubhlight.Emission.C44_lepton_false",
    "Nubhlight.Emission.C44_momentum",
    "Nubhlight.Emission.C44_null",
    "Nubhlight.Emission.C44_pair_false",
    "Nubhlight.Emission.C44_pair_partial",
    "Nubhlight.Emission.C44_pairs",
    "Nubhlight.Emission.C44_unbiased",
    "Nubhlight.Emission.C44_units"
   ],
   "note": "Momentum balance holds for every emission; the momentum of a pair is balanced unless one partner is killed (C44_pair_false), and the lepton source has an extra factor u^0 (C44_lepton_false, exact defect in C44_lepton_defect)."
  },
  {
   "property": "C45",
   "status": "partial",
   "theorems": [
    "Nubhlight.Emission.C45_full_false",
    "Nubhlight.Emission.C45_half_step_off"
   ],
   "note": "The recorded emission time is half a step later than the time coordinate: C45_full_false, C45_half_step_off."
  },
  {
   "property": "C46",
   "status": "partial",
   "theorems": [
    "Nubhlight.Interact.C46_absorption",
    "Nubhlight.Interact.C46_lepton_false",
    "Nubhlight.Interact.C46_lepton_partial"
   ],
   "note": "Momentum and weight hold; the lepton source has an extra factor u^0: C46_lepton_false, C46_lepton_partial."
  },
  {
   "property": "C47",
   "status": "partial",
   "theorems": [
    "Nubhlight.Interact.C47_account_partial",
    "Nubhlight.Interact.C47_bias_one",
    "Nubhlight.Interact.C47_failure_loses",
    "Nubhlight.Interact.C47_full_false",
    "Nubhlight.Interact.C47_population",
    "Nubhlight.Interact.C47_population_pass",
    "Nubhlight.Interact.C47_push_failure_loses",
    "Nubhlight.Interact.C47_split"
   ],
   "note": "Holds for successful scatterings; a failed scattering or push loses the weight: C47_full_false."
  },
  {
   "property": "C48",
   "status": "partial",
   "theorems": [
    "Nubhlight.Interact.C48_full_false",
    "Nubhlight.Interact.C48_inner_partial",
    "Nubhlight.Interact.C48_pass",
    "Nubhlight.Interact.C48_restarts"
   ],
   "note": "Ordering holds within a pass; the maximum number does not end the interactions of the step: C48_restarts, C48_full_false."
  },
  {
   "property": "C49",
   "status": "partial",
   "theorems": [
    "Nubhlight.Interact.C49_at_least_one",
    "Nubhlight.Interact.C49_bound_bias",
    "Nubhlight.Interact.C49_estimate_pos",
    "Nubhlight.Interact.C49_full_false",
    "Nubhlight.Interact.C49_rebalance",
    "Nubhlight.Interact.C49_single",
    "Nubhlight.Interact.C49_sum_partial"
   ],
   "note": "Biases are at least one; the expected number is bounded only when rebalancing does not push a bias up to one: C49_full_false, C49_sum_partial."
  },
  {
   "property": "C50",
   "status": "partial",
   "theorems": [
    "Nubhlight.Tune.C50_counts",
    "Nubhlight.Tune.C50_direction",
    "Nubhlight.Tune.C50_direction_emission",
    "Nubhlight.Tune.C50_direction_scattering",
    "Nubhlight.Tune.C50_early",
    "Nubhlight.Tune.C50_factors",
    "Nubhlight.Tune.C50_full_false",
    "Nubhlight.Tune.C50_history",
    "Nubhlight.Tune.C50_interval",
    "Nubhlight.Tune.C50_interval_scattering_partial"
   ],
   "note": "Factors, direction, positivity and bounds over histories; the interval holds for emission, for scattering only outside the black-hole metric: C50_early, C50_full_false."
  },
  {
   "property": "C51",
   "status": "proved",
   "theorems": [
    "Nubhlight.Oscillate.C51_fields",
    "Nubhlight.Oscillate.C51_four",
    "Nubhlight.Oscillate.C51_inactive",
    "Nubhlight.Oscillate.C51_partner",
    "Nubhlight.Oscillate.C51_probability"
   ],
   "note": "For the four types of the code; C51_partner says for which other numbers of types the class would be preserved."
  },
  {
   "property": "C52",
   "status": "partial",
   "theorems": [
    "Nubhlight.Oscillate.C52_bins",
    "Nubhlight.Oscillate.C52_direction",
    "Nubhlight.Oscillate.C52_draw",
    "Nubhlight.Oscillate.C52_full_false",
    "Nubhlight.Oscillate.C52_no_crossing",
    "Nubhlight.Oscillate.C52_stale_false",
    "Nubhlight.Oscillate.C52_total_partial"
   ],
   "note": "Bin by bin as stated; the total is conserved up to shallow*SMALL/(deep+SMALL) with moments of the present packets (C52_total_partial), not exactly (C52_full_false) and not with the moments the code uses (C52_stale_false)."
  },
  {
   "property": "C53",
   "status": "partial",
   "theorems": [
    "Nubhlight.Oscillate.C53_fresh_partial",
    "Nubhlight.Oscillate.C53_full_false",
    "Nubhlight.Oscillate.C53_history",
    "Nubhlight.Oscillate.C53_spurious_conversion"
   ],
   "note": "The moments are never reset: C53_history, C53_full_false, C53_spurious_conversion."
  },
  {
   "property": "C54",
   "status": "proved",
   "theorems": [
    "Nubhlight.Emission.C54_sign",
    "Nubhlight.Emission.C54_types"
   ],
   "note": ""
  },
  {
   "property": "C55",
   "status": "proved",
   "theorems": [
    "Nubhlight.Decomp.C55_equal",
    "Nubhlight.Decomp.C55_indivisible",
    "Nubhlight.Decomp.C55_partition"
   ],
   "note": "No divisibility check exists: C55_indivisible."
  },
  {
   "property": "C56",
   "status": "proved",
   "theorems": [
    "Nubhlight.Bounds.C56_halo"
   ],
   "note": "Messages are exchanged atomically (blocking send-receive); at least NG zones per rank in a decomposed direction."
  },
  {
   "property": "C57",
   "status": "proved",
   "theorems": [
    "Nubhlight.RadSync.C57_clear",
    "Nubhlight.RadSync.C57_clear_twice",
    "Nubhlight.RadSync.C57_deposits",
    "Nubhlight.RadSync.C57_gather",
    "Nubhlight.RadSync.C57_one_zone_lost"
   ],
   "note": "Values in any additive commutative monoid. C57_deposits is the claim for everything the code deposits (with one zone per rank in a direction the code deposits in that zone itself); C57_gather and C57_clear are for arrays of that form. For arbitrary arrays with one zone per rank the two messages of a direction overwrite each other: C57_one_zone_lost."
  },
  {
   "property": "C58",
   "status": "proved",
   "theorems": [
    "Nubhlight.Restart.C58_complete",
    "Nubhlight.Restart.C58_disjoint",
    "Nubhlight.Restart.C58_roundtrip"
   ],
   "note": "All block sizes, numbers of ranks and write orders; HDF5 hyperslab writes are modelled as assignment to disjoint index ranges."
  },
  {
   "property": "C59",
   "status": "partial",
   "theorems": [
    "Nubhlight.Restart.C59_between_partial",
    "Nubhlight.Restart.C59_crash",
    "Nubhlight.Restart.C59_full_false",
    "Nubhlight.Restart.C59_permanent_partial",
    "Nubhlight.Restart.C59_recoverable_partial"
   ],
   "note": "The full claim is false (C59_full_false, C59_crash): the pointer is rewritten before the file it names exists. Proved: restarts succeed after any history of completed writes, a crash while a permanent file is written is harmless, and a complete temporary file always survives."
  },
  {
   "property": "C60",
   "status": "proved",
   "theorems": [
    "Nubhlight.Restart.C60_newest_two",
    "Nubhlight.Restart.C60_permanent",
    "Nubhlight.Restart.C60_permanent_overwritten"
   ],
   "note": "Invariant over all histories of temporary writes, permanent writes and restarts. C60_permanent_overwritten records that a permanent number can be reused after a restart; no file is removed."
  },
  {
   "property": "C61",
   "status": "partial",
   "theorems": [
    "Nubhlight.Restart.C61_buffer",
    "Nubhlight.Restart.C61_deal",
    "Nubhlight.Restart.C61_flags_lost",
    "Nubhlight.Restart.C61_full_false",
    "Nubhlight.Restart.C61_overflow",
    "Nubhlight.Restart.C61_roundtrip_partial"
   ],
   "note": "All fields but the tracking and conversion flags survive (C61_roundtrip_partial); the flags come back uninitialised (C61_flags_lost, C61_full_false), and a packet of weight at most SMALL overruns the buffer (C61_overflow)."
  },
  {
   "property": "C62",
   "status": "proved",
   "theorems": [
    "Nubhlight.Spectrum.C62_output",
    "Nubhlight.Spectrum.C62_total"
   ],
   "note": "All histories of recording and reduction, all numbers of ranks."
  },
  {
   "property": "C63",
   "status": "partial",
   "theorems": [
    "Nubhlight.Spectrum.C63_bad_energy",
    "Nubhlight.Spectrum.C63_below_range",
    "Nubhlight.Spectrum.C63_branch_cut",
    "Nubhlight.Spectrum.C63_energy",
    "Nubhlight.Spectrum.C63_full_false",
    "Nubhlight.Spectrum.C63_in_array_partial",
    "Nubhlight.Spectrum.C63_negative_azimuth",
    "Nubhlight.Spectrum.C63_pole"
   ],
   "note": "Proved for positive energy, X2 in [0,1) and azimuth above minus one bin width; false in general (C63_full_false): C63_pole, C63_negative_azimuth and C63_bad_energy give packets outside the array."
  },
  {
   "property": "C64",
   "status": "proved",
   "theorems": [
    "Nubhlight.TimeLoop.C64_dump_count",
    "Nubhlight.TimeLoop.C64_final_dump",
    "Nubhlight.TimeLoop.C64_resume",
    "Nubhlight.TimeLoop.C64_schedule"
   ],
   "note": ""
  },
  {
   "property": "C65",
   "status": "partial",
   "theorems": [
    "Nubhlight.DumpReset.C65_averages_partial",
    "Nubhlight.DumpReset.C65_full_false",
    "Nubhlight.DumpReset.C65_halves",
    "Nubhlight.DumpReset.C65_others_partial",
    "Nubhlight.DumpReset.C65_stale_words",
    "Nubhlight.DumpReset.C65_zones"
   ],
   "note": "All counters but the radiation four-force are reset (C65_others_partial, C65_averages_partial); of that only the first RAD_NUM_TYPES*N123G words are cleared (C65_stale_words, C65_full_false)."
  },
  {
   "property": "C66",
   "status": "partial",
   "theorems": [
    "Nubhlight.Params.C66_abbreviation",
    "Nubhlight.Params.C66_all_required_partial",
    "Nubhlight.Params.C66_duplicate_hides_missing",
    "Nubhlight.Params.C66_full_false",
    "Nubhlight.Params.C66_line",
    "Nubhlight.Params.C66_lookup",
    "Nubhlight.Params.C66_reads_partial",
    "Nubhlight.Params.C66_shadowed",
    "Nubhlight.Params.C66_type_unchecked"
   ],
   "note": "Proved for registered names none of which is a prefix of an earlier one, each on exactly one line; false in general (C66_full_false): C66_duplicate_hides_missing, C66_abbreviation, C66_shadowed, C66_type_unchecked."
  },
  {
   "property": "C67",
   "status": "proved",
   "theorems": [
    "Nubhlight.Tracers.C67_nodes",
    "Nubhlight.Tracers.C67_polynomials",
    "Nubhlight.Tracers.C67_quadratic",
    "Nubhlight.Tracers.C67_storage",
    "Nubhlight.Tracers.C67_sum_one",
    "Nubhlight.Tracers.C67_zone_centres"
   ],
   "note": "Over every field; any number of distinct nodes in one direction, degree two in each direction in three dimensions. The stored array is a function of its index, with C67_storage for the index arithmetic."
  },
  {
   "property": "C68",
   "status": "partial",
   "theorems": [
    "Nubhlight.Tracers.C68_cell_mass",
    "Nubhlight.Tracers.C68_cell_position",
    "Nubhlight.Tracers.C68_collision",
    "Nubhlight.Tracers.C68_full_false",
    "Nubhlight.Tracers.C68_no_cells",
    "Nubhlight.Tracers.C68_overflow",
    "Nubhlight.Tracers.C68_ranks_partial",
    "Nubhlight.Tracers.C68_requested"
   ],
   "note": "Mass, positions and number proved. Identifiers are distinct within a rank, and across ranks only if no rank makes more than about 1.5 times its share (C68_ranks_partial); otherwise they collide (C68_collision, C68_full_false) or leave the range of int (C68_overflow)."
  },
  {
   "property": "C69",
   "status": "partial",
   "theorems": [
    "Nubhlight.Tracers.C69_columns",
    "Nubhlight.Tracers.C69_field_false",
    "Nubhlight.Tracers.C69_full_false",
    "Nubhlight.Tracers.C69_vectors_partial"
   ],
   "note": "The position vectors are right (C69_vectors_partial); the separate columns (C69_columns, C69_full_false) and the covariant field (C69_field_false) are not."
  },
  {
   "property": "C70",
   "status": "proved",
   "theorems": [
    "Nubhlight.Scattering.C70_accepts",
    "Nubhlight.Scattering.C70_envelope",
    "Nubhlight.Scattering.C70_sample"
   ],
   "note": "All positive energies, over the reals."
  },
  {
   "property": "C71",
   "status": "partial",
   "theorems": [
    "Nubhlight.Scattering.C71_close",
    "Nubhlight.Scattering.C71_energy",
    "Nubhlight.Scattering.C71_exact_partial",
    "Nubhlight.Scattering.C71_full_false",
    "Nubhlight.Scattering.C71_rest"
   ],
   "note": "Exact without the regularisation SMALL and for moving frames (C71_exact_partial). With it the claim is false in exact arithmetic (C71_full_false), but every component is within 2 SMALL times the spatial length of the exact transformation (C71_close)."
  },
  {
   "property": "C72",
   "status": "partial",
   "theorems": [
    "Nubhlight.Scattering.C72_bound_partial",
    "Nubhlight.Scattering.C72_cosine",
    "Nubhlight.Scattering.C72_couplings",
    "Nubhlight.Scattering.C72_fails",
    "Nubhlight.Scattering.C72_full_false",
    "Nubhlight.Scattering.C72_iff",
    "Nubhlight.Scattering.C72_isotropic",
    "Nubhlight.Scattering.C72_multiscatt",
    "Nubhlight.Scattering.C72_normalised"
   ],
   "note": "C72_iff: the bound holds exactly where the squared quadratic factor is at most its maximum, because the factor enters the cross section twice and the maximum once; so for largest energies up to the rest energy (C72_bound_partial), not above (C72_fails, C72_full_false), where angles become isotropic (C72_isotropic)."
  },
  {
   "property": "C73",
   "status": "proved",
   "theorems": [
    "Nubhlight.Scattering.C73_lookup",
    "Nubhlight.Scattering.C73_node"
   ],
   "note": "All real energies and temperatures, for ranges in which the clamps stay inside; over the reals."
  },
  {
   "property": "C74",
   "status": "proved",
   "theorems": [
    "Nubhlight.Reconstruct.C74_stencil_in_ghosts"
   ],
   "note": ""
  },
  {
   "property": "C75",
   "status": "proved",
   "theorems": [
    "Nubhlight.Fluid.C75_characteristic_speeds",
    "Nubhlight.Fluid.C75_signal_speed_range",
    "Nubhlight.Fluid.C75_subluminal"
   ],
   "note": ""
  },
  {
   "property": "C76",
   "status": "partial",
   "theorems": [
    "Nubhlight.Fluid.C76_flag_ignored",
    "Nubhlight.Fluid.C76_sound_partial"
   ],
   "note": "Soundness proved for exact roots inside the domain; the out-of-domain flag is ignored by the code: C76_flag_ignored."
  },
  {
   "property": "C77",
   "status": "partial",
   "theorems": [
    "Nubhlight.Util.C77_full_false",
    "Nubhlight.Util.C77_interior_node_wrong",
    "Nubhlight.Util.C77_lower_partial"
   ],
   "note": "The inclusive upper index of the curve is passed as an exclusive bound, so interior nodes are not reproduced: C77_interior_node_wrong, C77_full_false."
  },
  {
   "property": "C78",
   "status": "proved",
   "theorems": [
    "Nubhlight.Coord.C78_bijective",
    "Nubhlight.Coord.C78_off_axis",
    "Nubhlight.Coord.C78_poles",
    "Nubhlight.Coord.C78_spherical_round_trip",
    "Nubhlight.Coord.C78_strictMono",
    "Nubhlight.Coord.C78_upper_edge"
   ],
   "note": "poly_alpha is an even natural number (default 14). On the upper edge the reported angle exceeds pi: C78_upper_edge."
  },
  {
   "property": "C79",
   "status": "proved",
   "theorems": [
    "Nubhlight.Current.C79_first_step",
    "Nubhlight.Current.C79_no_net_charge",
    "Nubhlight.Current.C79_no_stale",
    "Nubhlight.Current.C79_uniform",
    "Nubhlight.Current.C79_value"
   ],
   "note": ""
  },
  {
   "property": "C80",
   "status": "proved",
   "theorems": [
    "Nubhlight.Fluid.C80_ignorable",
    "Nubhlight.Fluid.C80_source"
   ],
   "note": ""
  },
  {
   "property": "C81",
   "status": "proved",
   "theorems": [
    "Nubhlight.EosTable.C81_atmosphere",
    "Nubhlight.EosTable.C81_gamma",
    "Nubhlight.EosTable.C81_shift",
    "Nubhlight.EosTable.C81_sound_speed",
    "Nubhlight.EosTable.C81_stored"
   ],
   "note": "Exact arithmetic; 1 - 10*SMALL rounds to 1 in double precision."
  },
  {
   "property": "C82",
   "status": "partial",
   "theorems": [
    "Nubhlight.EosTable.C82_floor_partial",
    "Nubhlight.EosTable.C82_full_false",
    "Nubhlight.EosTable.C82_ratio",
    "Nubhlight.EosTable.C82_unit_one_partial"
   ],
   "note": "The floor converts units, the two other callers do not: C82_full_false, C82_ratio."
  },
  {
   "property": "C83",
   "status": "proved",
   "theorems": [
    "Nubhlight.Electrons.C83_direction",
    "Nubhlight.Electrons.C83_frame"
   ],
   "note": ""
  },
  {
   "property": "C84",
   "status": "proved",
   "theorems": [
    "Nubhlight.Electrons.C84_energy",
    "Nubhlight.Electrons.C84_no_force"
   ],
   "note": ""
  },
  {
   "property": "C85",
   "status": "partial",
   "theorems": [
    "Nubhlight.Interact.C85_absorption",
    "Nubhlight.Interact.C85_all_channels",
    "Nubhlight.Interact.C85_full_false",
    "Nubhlight.Interact.C85_single_partial"
   ],
   "note": "The code requires all channels to end in the step (conjunction): C85_full_false, C85_all_channels; right for a single channel: C85_single_partial."
  },
  {
   "property": "C86",
   "status": "proved",
   "theorems": [
    "Nubhlight.Oscillate.C86_all_weight",
    "Nubhlight.Oscillate.C86_bin"
   ],
   "note": ""
  },
  {
   "property": "C87",
   "status": "partial",
   "theorems": [
    "Nubhlight.Oscillate.C87_full_false",
    "Nubhlight.Oscillate.C87_partial"
   ],
   "note": "Diagonal metrics only; an index typo breaks the others: C87_full_false."
  },
  {
   "property": "C88",
   "status": "partial",
   "theorems": [
    "Nubhlight.Oscillate.C88_full_false",
    "Nubhlight.Oscillate.C88_partial"
   ],
   "note": "Writing a dump adds to the moments used for conversion: C88_full_false."
  },
  {
   "property": "C89",
   "status": "partial",
   "theorems": [
    "Nubhlight.Oscillate.C89_full_false",
    "Nubhlight.Oscillate.C89_partial",
    "Nubhlight.Oscillate.C89_second"
   ],
   "note": "The second direction is written from the wrong place: C89_second, C89_full_false."
  },
  {
   "property": "C90",
   "status": "partial",
   "theorems": [
    "Nubhlight.Restart.C90_full_false",
    "Nubhlight.Restart.C90_partial",
    "Nubhlight.Restart.C90_total"
   ],
   "note": "False for several ranks (C90_full_false): the value of rank 0 is written and given to all (C90_total). Proved for values equal on all ranks and for one rank."
  },
  {
   "property": "C91",
   "status": "partial",
   "theorems": [
    "Nubhlight.Spectrum.C91_full_false",
    "Nubhlight.Spectrum.C91_in_array_partial",
    "Nubhlight.Spectrum.C91_negative_axis",
    "Nubhlight.Spectrum.C91_total"
   ],
   "note": "False for motion exactly along the negative third axis (C91_negative_axis, C91_full_false); proved for all other directions."
  },
  {
   "property": "C92",
   "status": "partial",
   "theorems": [
    "Nubhlight.Tracers.C92_edge",
    "Nubhlight.Tracers.C92_full_false",
    "Nubhlight.Tracers.C92_interior_partial",
    "Nubhlight.Tracers.C92_other_dumps"
   ],
   "note": "Right in full dumps for tracers whose stencil lies in their rank; too large by the dump interval in other dumps (C92_other_dumps), and wrong next to block edges, where ghost zones are zero (C92_edge, C92_full_false)."
  },
  {
   "property": "C93",
   "status": "partial",
   "theorems": [
    "Nubhlight.Scattering.C93_full_false",
    "Nubhlight.Scattering.C93_integral",
    "Nubhlight.Scattering.C93_multiscatt",
    "Nubhlight.Scattering.C93_unit_energy_partial"
   ],
   "note": "True in the multiple-scattering test (C93_multiscatt); for neutrinos the integral has the quadratic factor once too often (C93_integral, C93_full_false), and agrees only where that is one."
  },
  {
   "property": "C94",
   "status": "partial",
   "theorems": [
    "Nubhlight.Scattering.C94_full_false",
    "Nubhlight.Scattering.C94_race",
    "Nubhlight.Scattering.C94_serial_partial",
    "Nubhlight.Scattering.C94_some_node"
   ],
   "note": "True on one thread; false on several (C94_race, C94_full_false), because lw and lT are shared in the parallel loop. C94_some_node bounds what can be stored under any schedule."
  },
  {
   "property": "C95",
   "status": "partial",
   "theorems": [
    "Nubhlight.Scattering.C95_first_wins",
    "Nubhlight.Scattering.C95_full_false",
    "Nubhlight.Scattering.C95_same_partial",
    "Nubhlight.Scattering.C95_stale"
   ],
   "note": "False after a change of the largest frequency (C95_stale, C95_full_false): an existing file is read whatever it was made for. True for a fresh directory or an unchanged frequency."
  },
  {
   "property": "C96",
   "status": "proved",
   "theorems": [
    "Nubhlight.Scattering.C96_inverse",
    "Nubhlight.Scattering.C96_monotone"
   ],
   "note": "Speeds in (0, 1]; the addition of SMALL to the speed and the clamp after sampling are not modelled."
  },
  {
   "property": "C97",
   "status": "proved",
   "theorems": [
    "Nubhlight.Scattering.C97_accept",
    "Nubhlight.Scattering.C97_branches",
    "Nubhlight.Scattering.C97_target"
   ],
   "note": "Positive temperatures; the generator of chi-square numbers is taken to have its stated density (chiDens); the limit of 100000 trials is not modelled."
  },
  {
   "property": "C98",
   "status": "partial",
   "theorems": [
    "Nubhlight.Compton.C98_angle_partial",
    "Nubhlight.Compton.C98_close",
    "Nubhlight.Scattering.C98_direction",
    "Nubhlight.Compton.C98_full_false",
    "Nubhlight.Scattering.C98_null_partial",
    "Nubhlight.Compton.C98_rest_partial"
   ],
   "note": "Direction and angle for every auxiliary direction not parallel to the packet (C98_direction). Without the number added to the speed in boost: null, positive energy, sampled energy and sampled angle in the frame of a moving scatterer (C98_null_partial, C98_angle_partial); as coded for scatterers at rest (C98_rest_partial). False exactly for moving ones with that number (C98_full_false); the square is then zero to within 36 SMALL times Lorentz factor times energy squared (C98_close). Missing: parallel auxiliary directions, where the code divides by zero."
  },
  {
   "property": "C99",
   "status": "partial",
   "theorems": [
    "Nubhlight.History.C99_after_scattering",
    "Nubhlight.History.C99_between_partial",
    "Nubhlight.History.C99_bounds",
    "Nubhlight.History.C99_during",
    "Nubhlight.History.C99_full_false",
    "Nubhlight.History.C99_same_step",
    "Nubhlight.History.C99_short_push",
    "Nubhlight.History.C99_tracers"
   ],
   "note": "Proved for all positions asked for between steps and at the end of a step, and during a step for packets present before its interactions. Missing: packets scattered earlier in the same step (C99_same_step, C99_full_false) and steps longer than the light-crossing push of a scattered packet (C99_short_push)."
  },
  {
   "property": "C100",
   "status": "proved",
   "theorems": [
    "Nubhlight.Diag.C100_divb",
    "Nubhlight.Diag.C100_inner",
    "Nubhlight.Diag.C100_same",
    "Nubhlight.Diag.C100_total"
   ],
   "note": "Grids whose first size divides by the number of slabs (C55), any blocks in the other directions; sums over threads and ranks in exact arithmetic; ghost zones as after the exchange (C56)."
  },
  {
   "property": "C101",
   "status": "partial",
   "theorems": [
    "Nubhlight.Diag.C101_full_false",
    "Nubhlight.Diag.C101_on_face",
    "Nubhlight.Diag.C101_outside_partial",
    "Nubhlight.Diag.C101_single_partial",
    "Nubhlight.Diag.C101_slabs"
   ],
   "note": "True for one slab in the first direction and a radius not on a face (C101_single_partial, C101_outside_partial). With several slabs one shell per slab is added (C101_slabs, C101_full_false); a radius on a face selects the outermost shell (C101_on_face)."
  },
  {
   "property": "C102",
   "status": "partial",
   "theorems": [
    "Nubhlight.Diag.C102_eff_false",
    "Nubhlight.Diag.C102_eff_partial",
    "Nubhlight.Diag.C102_flux_false",
    "Nubhlight.Diag.C102_full_false",
    "Nubhlight.Diag.C102_horizon_partial",
    "Nubhlight.Diag.C102_narrow",
    "Nubhlight.Diag.C102_phi"
   ],
   "note": "Magnetic flux and horizon fluxes for at least six zones per slab (C102_horizon_partial), otherwise zero or read outside the array (C102_narrow, C102_flux_false); efficiency only without transverse division (C102_eff_partial, C102_eff_false); the normalised flux is not a number for every accreting flow (C102_phi)."
  },
  {
   "property": "C103",
   "status": "proved",
   "theorems": [
    "Nubhlight.RadDiag.C103_content",
    "Nubhlight.RadDiag.C103_momentum",
    "Nubhlight.RadDiag.C103_number",
    "Nubhlight.RadDiag.C103_order",
    "Nubhlight.RadDiag.C103_sign",
    "Nubhlight.RadDiag.C103_trace"
   ],
   "note": "Zones of nonzero volume; interpolated positions and wave vectors are inputs (C43, C99); exact sums."
  },
  {
   "property": "C104",
   "status": "partial",
   "theorems": [
    "Nubhlight.RunControl.C104_default_seed",
    "Nubhlight.RunControl.C104_distinct_partial",
    "Nubhlight.RunControl.C104_full_false",
    "Nubhlight.RunControl.C104_many_threads",
    "Nubhlight.RunControl.C104_restart"
   ],
   "note": "Distinct for at most 157 threads per rank (C104_distinct_partial); collisions for more (C104_many_threads, C104_default_seed, C104_full_false); a restarted run draws the same numbers again (C104_restart)."
  },
  {
   "property": "C105",
   "status": "partial",
   "theorems": [
    "Nubhlight.RadDiag.C105_account",
    "Nubhlight.RadDiag.C105_alarm_partial",
    "Nubhlight.RadDiag.C105_conversion",
    "Nubhlight.RadDiag.C105_full_false",
    "Nubhlight.RadDiag.C105_no_false_alarm",
    "Nubhlight.RadDiag.C105_single_rank"
   ],
   "note": "The account (C105_account) and absence of false alarms (C105_no_false_alarm) hold for every history; the alarm works on two or more ranks only (C105_alarm_partial, C105_single_rank, C105_full_false). Flavour conversion changes the audited total (C105_conversion)."
  },
  {
   "property": "C106",
   "status": "partial",
   "theorems": [
    "Nubhlight.RadDiag.C106_absorbed",
    "Nubhlight.RadDiag.C106_bins_partial",
    "Nubhlight.RadDiag.C106_contents",
    "Nubhlight.RadDiag.C106_full_false",
    "Nubhlight.RadDiag.C106_moved",
    "Nubhlight.RadDiag.C106_right_bin",
    "Nubhlight.RadDiag.C106_same_rank"
   ],
   "note": "Bins exist in exact arithmetic (C106_bins_partial) and contents add up (C106_contents, C106_right_bin); in double precision the last index overflows (C106_absorbed); packets that changed rank are entered at the wrong place (C106_moved, C106_full_false)."
  },
  {
   "property": "C107",
   "status": "partial",
   "theorems": [
    "Nubhlight.RunControl.C107_duplicate",
    "Nubhlight.RunControl.C107_full_false",
    "Nubhlight.RunControl.C107_lines",
    "Nubhlight.RunControl.C107_session_partial"
   ],
   "note": "Within a session (C107_session_partial, C107_lines); a file continued by a restart repeats times (C107_duplicate, C107_full_false)."
  },
  {
   "property": "C108",
   "status": "proved",
   "theorems": [
    "Nubhlight.RadDiag.C108_empty",
    "Nubhlight.RadDiag.C108_imbalance",
    "Nubhlight.RadDiag.C108_shares"
   ],
   "note": "All populations with nonzero total weight; without packets the percentages are not numbers (C108_empty). The division is made in single precision in the code, here exactly."
  },
  {
   "property": "C109",
   "status": "partial",
   "theorems": [
    "Nubhlight.RunControl.C109_endless",
    "Nubhlight.RunControl.C109_full_false",
    "Nubhlight.RunControl.C109_status"
   ],
   "note": "Refuted: status 0, unmatched collective operations or endless recursion (C109_status, C109_endless, C109_full_false)."
  },
  {
   "property": "C110",
   "status": "partial",
   "theorems": [
    "Nubhlight.JetFlux.C110_full_false",
    "Nubhlight.JetFlux.C110_logged_partial"
   ],
   "note": "The column is the flux of radial momentum, not of energy (C110_logged_partial, C110_full_false)."
  },
  {
   "property": "C111",
   "status": "partial",
   "theorems": [
    "Nubhlight.Emissivity.C111_brem_spectrum",
    "Nubhlight.Emissivity.C111_decreasing",
    "Nubhlight.Emissivity.C111_full_false",
    "Nubhlight.Emissivity.C111_gray_partial",
    "Nubhlight.Emissivity.C111_kirchhoff_partial",
    "Nubhlight.Emissivity.C111_nonneg",
    "Nubhlight.Emissivity.C111_planck"
   ],
   "note": "Within 1e-9 where the Planck function exceeds 1e-90 (C111_kirchhoff_partial); never negative (C111_nonneg); far above the thermal peak the 1e-100 added to the Planck function suppresses absorption (C111_full_false)."
  },
  {
   "property": "C112",
   "status": "partial",
   "theorems": [
    "Nubhlight.Emissivity.C112_brem",
    "Nubhlight.Emissivity.C112_flat",
    "Nubhlight.Emissivity.C112_full_false",
    "Nubhlight.Emissivity.C112_gray_false",
    "Nubhlight.Emissivity.C112_synch_false",
    "Nubhlight.OpacTable.C112_table_false",
    "Nubhlight.Emissivity.C112_total_partial"
   ],
   "note": "Bremsstrahlung and flat emission (C112_brem, C112_flat, C112_total_partial); refuted for synchrotron, gray and tabulated emission (C112_synch_false, C112_gray_false, C112_table_false, C112_full_false)."
  },
  {
   "property": "C113",
   "status": "partial",
   "theorems": [
    "Nubhlight.Emissivity.C113_flat_partial",
    "Nubhlight.Emissivity.C113_full_false",
    "Nubhlight.Emissivity.C113_light_partial"
   ],
   "note": "All light processes; neutrinos while Ye is at most 1/2; negative antineutrino emission above (C113_full_false). Tabulated emission: see C117_lookup_partial."
  },
  {
   "property": "C114",
   "status": "proved",
   "theorems": [
    "Nubhlight.Emissivity.C114_accept",
    "Nubhlight.Emissivity.C114_bound"
   ],
   "note": "All sets of processes; the random direction itself is C53."
  },
  {
   "property": "C115",
   "status": "proved",
   "theorems": [
    "Nubhlight.Emissivity.C115_all_zero",
    "Nubhlight.Emissivity.C115_in_table",
    "Nubhlight.Emissivity.C115_table"
   ],
   "note": "Whenever some frequency has nonzero expected number; if none has the table is not a number (C115_all_zero)."
  },
  {
   "property": "C116",
   "status": "partial",
   "theorems": [
    "Nubhlight.Emissivity.C116_energy_partial",
    "Nubhlight.Emissivity.C116_full_false",
    "Nubhlight.Emissivity.C116_pairs"
   ],
   "note": "With the exact density in frequency (C116_energy_partial) and the number of pairs (C116_pairs); the code replaces integral and density by quadrature and interpolation; packets of weights below SMALL are dropped (C116_full_false)."
  },
  {
   "property": "C117",
   "status": "partial",
   "theorems": [
    "Nubhlight.OpacTable.C117_full_false",
    "Nubhlight.OpacTable.C117_lookup_partial",
    "Nubhlight.OpacTable.C117_node_partial",
    "Nubhlight.OpacTable.C117_positions",
    "Nubhlight.OpacTable.C117_trilinear_partial"
   ],
   "note": "Equally spaced axes (C117_lookup_partial, C117_trilinear_partial, C117_node_partial, C117_positions); an axis that is not equally spaced leads outside the table (C117_full_false)."
  },
  {
   "property": "C118",
   "status": "partial",
   "theorems": [
    "Nubhlight.OpacTable.C118_full_false",
    "Nubhlight.OpacTable.C118_layout_partial",
    "Nubhlight.OpacTable.C118_regrid_partial",
    "Nubhlight.OpacTable.C118_top_false",
    "Nubhlight.OpacTable.C118_types_false"
   ],
   "note": "Layout and all frequencies but the highest (C118_layout_partial, C118_regrid_partial); the highest reads past the table (C118_top_false, C118_full_false); the number of types is not compared (C118_types_false)."
  },
  {
   "property": "C119",
   "status": "proved",
   "theorems": [
    "Nubhlight.RadZone.C119_same_fluid"
   ],
   "note": "All states in which the spatial metric is positive; temperatures and densities are units and table lookups (C117, C33)."
  },
  {
   "property": "C120",
   "status": "proved",
   "theorems": [
    "Nubhlight.RadZone.C120_always",
    "Nubhlight.RadZone.C120_angle",
    "Nubhlight.RadZone.C120_frequency"
   ],
   "note": "C120_frequency, C120_angle for future-directed null wave vectors; C120_always for any other with nonzero energy."
  },
  {
   "property": "C121",
   "status": "partial",
   "theorems": [
    "Nubhlight.RadZone.C121_current_partial",
    "Nubhlight.RadZone.C121_full_false",
    "Nubhlight.RadZone.C121_never_computed",
    "Nubhlight.RadZone.C121_stale",
    "Nubhlight.RadZone.C121_unmarked"
   ],
   "note": "Zones whose marker is not atmosphere at the beginning of the step (C121_current_partial), builds without marker (C121_unmarked); refuted for zones whose marker passes the threshold (C121_never_computed, C121_full_false) and builds without the polytropic fallback (C121_stale)."
  },
  {
   "property": "C122",
   "status": "partial",
   "theorems": [
    "Nubhlight.RadZone.C122_decomposition",
    "Nubhlight.RadZone.C122_full_false",
    "Nubhlight.RadZone.C122_gray",
    "Nubhlight.RadZone.C122_minimum",
    "Nubhlight.RadZone.C122_positive",
    "Nubhlight.RadZone.C122_step_partial",
    "Nubhlight.RadZone.C122_zones"
   ],
   "note": "Minimum over zones, ranks and orders (C122_minimum, C122_decomposition), the step (C122_step_partial), the zones (C122_zones); the emergency minimum step ignores it (C122_full_false); gray emission does not limit the step (C122_gray)."
  },
  {
   "property": "C123",
   "status": "partial",
   "theorems": [
    "Nubhlight.RepairFlags.C123_alternate",
    "Nubhlight.RepairFlags.C123_edge",
    "Nubhlight.RepairFlags.C123_first",
    "Nubhlight.RepairFlags.C123_full_false",
    "Nubhlight.RepairFlags.C123_ghosts",
    "Nubhlight.RepairFlags.C123_interior_partial",
    "Nubhlight.RepairFlags.C123_unset"
   ],
   "note": "Holds for zones whose neighbours are all on their rank (C123_interior_partial). Ghost zones are never used after the first repair since the flags are not turned back (C123_ghosts), used unset in the first (C123_first, C123_unset) and in every other repair at boundaries set by the problem (C123_alternate); refuted in general (C123_full_false, C123_edge)."
  },
  {
   "property": "C124",
   "status": "proved",
   "theorems": [
    "Nubhlight.Threads.C124_deterministic",
    "Nubhlight.Threads.C124_flux_ct",
    "Nubhlight.Threads.C124_force",
    "Nubhlight.Threads.C124_simultaneous",
    "Nubhlight.Threads.C124_some_schedule",
    "Nubhlight.Threads.C124_update"
   ],
   "note": "General theorem for loops of loads, stores and indivisible additions (C124_deterministic, C124_simultaneous), every complete schedule; instances C124_update (predictor and corrector aliasing), C124_force, C124_flux_ct. Accesses are indivisible and sequentially consistent; functions called in the loop bodies are arguments."
  },
  {
   "property": "C125",
   "status": "partial",
   "theorems": [
    "Nubhlight.Threads.C125_full_false",
    "Nubhlight.Threads.C125_tallies_partial"
   ],
   "note": "Indivisible additions: C125_tallies_partial. The absorbed energy Jrad[1] is added without atomic and can lose a contribution (C125_full_false)."
  },
  {
   "property": "C126",
   "status": "partial",
   "theorems": [
    "Nubhlight.FluidStep.C126_division_partial",
    "Nubhlight.FluidStep.C126_full_false",
    "Nubhlight.FluidStep.C126_memory"
   ],
   "note": "Proved for every grid, division, solver (as functions of the global zone index and the stencil), contents of work arrays and number of steps: if no recovery fails in one of the runs and the upper azimuthal side is not outflow, both runs stop or both reach the same time, next step and variables in every zone (C126_division_partial); leftovers in work arrays have no effect (C126_memory). Full statement refuted (C126_full_false): with upper azimuthal outflow the ghost zones are copies of the first zone of the last rank (core/bounds.c:205). Failed recoveries depend on the division too, see C123."
  },
  {
   "property": "C127",
   "status": "proved",
   "theorems": [
    "Nubhlight.FluidStep.C127_divergence",
    "Nubhlight.FluidStep.C127_half_step"
   ],
   "note": "Whole runs on all ranks with arbitrary other physics, failed recoveries, repairs and boundaries included; the solver is assumed to treat the field as the code does (conserved field is determinant times field, no source, recovery divides by it also on failure, floors leave it)."
  },
  {
   "property": "C128",
   "status": "proved",
   "theorems": [
    "Nubhlight.FluidStep.C128_periodic_totals",
    "Nubhlight.FluidStep.C128_step_budget"
   ],
   "note": "C128_step_budget for any boundaries except upper azimuthal outflow (C126), C128_periodic_totals for whole runs on periodic boxes. Recovery is assumed to reproduce the variable in question where it reports success, which it does for mass, momenta and field wherever the search stops (C219); exact arithmetic."
  },
  {
   "property": "C129",
   "status": "proved",
   "theorems": [
    "Nubhlight.FluidStep.C129_midpoint",
    "Nubhlight.FluidStep.C129_second_order"
   ],
   "note": "C129_midpoint for arbitrary nonlinear rates, C129_second_order for linear ones. Not with upper azimuthal outflow (C126). Exact arithmetic, exact recovery."
  },
  {
   "property": "C130",
   "status": "proved",
   "theorems": [
    "Nubhlight.Messages.C130_bound_completes",
    "Nubhlight.Messages.C130_bound_prim",
    "Nubhlight.Messages.C130_completes",
    "Nubhlight.Messages.C130_finishes",
    "Nubhlight.Messages.C130_no_deadlock",
    "Nubhlight.Messages.C130_results"
   ],
   "note": "General theorems for programs whose instructions correspond rank by rank (C130_results, C130_no_deadlock, C130_completes, C130_finishes) and their application to the boundary update, which is shown to give the result of Bounds.boundPrim (C130_bound_prim, C130_bound_completes). Steps of ranks interleave arbitrarily; a send is buffered or not as the library pleases; messages do not overtake within one pair of ranks and tag."
  },
  {
   "property": "C131",
   "status": "partial",
   "theorems": [
    "Nubhlight.Messages.C131_full_false",
    "Nubhlight.Messages.C131_run_partial"
   ],
   "note": "Proved for fluid runs of any number of steps in which in every repair either all ranks give up all their zones or none does (C131_run_partial). Full statement refuted (C131_full_false): a rank that gives up all its zones calls fixup (core/fixup.c:355-356), whose timers enter two more barriers (core/timing.c:26-44); they are matched with later barriers of the other ranks until these wait for its zones while it waits in a barrier. Electrons and radiation parts of a step are not in this program."
  },
  {
   "property": "C132",
   "status": "proved",
   "theorems": [
    "Nubhlight.Messages.C132_clean_run",
    "Nubhlight.Messages.C132_completes",
    "Nubhlight.Messages.C132_division",
    "Nubhlight.Messages.C132_run"
   ],
   "note": "C132_run and C132_completes for runs in which each rank follows the program its repairs call for, all alike (other runs: C131); C132_clean_run needs only that no recovery fails; C132_division transfers C126 to runs by messages (not with upper azimuthal outflow, C126). Without radiation and electrons; the physics of a zone or a face are functions of the global index as in C126."
  },
  {
   "property": "C133",
   "status": "partial",
   "theorems": [
    "Nubhlight.FluidStep.C133_file",
    "Nubhlight.FluidStep.C133_full_false",
    "Nubhlight.FluidStep.C133_resume_partial",
    "Nubhlight.FluidStep.C133_sessions_partial"
   ],
   "note": "Proved for runs without failed recoveries and without upper azimuthal outflow, for one restart (C133_resume_partial) and any number (C133_sessions_partial), each on any division; C133_file holds for every state. Full statement refuted on one rank (C133_full_false): the recovery flags are not saved, and the half-step array starts with zeros in its ghost zones, so the first repair after a restart averages over zones that count as failed in the run that goes on. Real-number arithmetic; header items other than t and dt are C64."
  },
  {
   "property": "C134",
   "status": "partial",
   "theorems": [
    "Nubhlight.RadStep.C134_beyond_lost",
    "Nubhlight.RadStep.C134_full_false",
    "Nubhlight.RadStep.C134_run_partial",
    "Nubhlight.RadStep.C134_step_partial"
   ],
   "note": "Proved for one step (C134_step_partial) and runs (C134_run_partial) if emission is in active zones, interactions are in zones of the grid next to or in the rank (in the rank itself in directions with one zone per rank, as the code arranges), no packet is dropped, and scatterings and the pushes after them succeed. Without this it is false: a failed scattering loses the part split off (C134_full_false), and a packet absorbed beyond an outer boundary gives its momentum to a ghost zone that is never returned (C134_beyond_lost). Conserved variables stand for the primitive ones (recovery is C14, C76), exact arithmetic."
  },
  {
   "property": "C135",
   "status": "proved",
   "theorems": [
    "Nubhlight.PhotonMessages.C135_completes",
    "Nubhlight.PhotonMessages.C135_delivered",
    "Nubhlight.PhotonMessages.C135_exchange"
   ],
   "note": "C135_exchange (results, counters, message kinds and lengths), C135_completes (no deadlock, at most 70 actions per rank), C135_delivered (identifiers and total count; for packets outside their rank and near the domain, see C39 for where they arrive). Particles as in C39. Messages of one pair and tag do not overtake."
  },
  {
   "property": "C136",
   "status": "proved",
   "theorems": [
    "Nubhlight.SumMessages.C136_clear_completes",
    "Nubhlight.SumMessages.C136_completes",
    "Nubhlight.SumMessages.C136_deposits",
    "Nubhlight.SumMessages.C136_memset_all",
    "Nubhlight.SumMessages.C136_memset_short",
    "Nubhlight.SumMessages.C136_runs",
    "Nubhlight.SumMessages.C136_sum",
    "Nubhlight.SumMessages.C136_sumClear"
   ],
   "note": "C136_sum, C136_sumClear (results), C136_completes, C136_clear_completes (no deadlock, bounded schedules), C136_runs (call after call), C136_deposits (with C57). One component of an array in an additive commutative monoid. The memset of radG_buf is too short with further components (C136_memset_short); harmless because the buffer is static and the reduction empties it (C136_runs). Messages of one pair and tag do not overtake."
  },
  {
   "property": "C137",
   "status": "partial",
   "theorems": [
    "Nubhlight.MainLoop.C137_alike_partial",
    "Nubhlight.MainLoop.C137_ends_partial",
    "Nubhlight.MainLoop.C137_full_false",
    "Nubhlight.MainLoop.C137_run_partial",
    "Nubhlight.MainLoop.C137_single_partial"
   ],
   "note": "Proved if ranks never decide differently about their own zones (core/fixup.c:355) and about leaving the program (C137_run_partial), in particular if they cannot (C137_alike_partial) or there is one rank (C137_single_partial); all schedules then end if the code has radiation or proposed steps have a positive lower bound (C137_ends_partial). False otherwise: the rank that writes the log leaves alone when packets are too many (core/main.c:213-216) and the others wait for ever (C137_full_false); the repair is C131. What ranks compute between messages is arbitrary. MPI_Allreduce is assumed to give all ranks the same value. EXIT_ON_INIT, NO_GRMHD_UPDATE, KILL_ALL_PACKETS and exits in the physics are not modelled."
  },
  {
   "property": "C138",
   "status": "partial",
   "theorems": [
    "Nubhlight.TracerPush.C138_converges",
    "Nubhlight.TracerPush.C138_created",
    "Nubhlight.TracerPush.C138_full_false",
    "Nubhlight.TracerPush.C138_interpolated",
    "Nubhlight.TracerPush.C138_stored_partial",
    "Nubhlight.TracerPush.C138_uniform",
    "Nubhlight.TracerPush.C138_velocity"
   ],
   "note": "Velocity (C138_velocity), uniform gas (C138_uniform), order of accuracy over any number of steps of any lengths (C138_converges), creation (C138_created). False for the stored four-velocity: it is that of the gas half a step earlier at the new position (C138_full_false; exact value in C138_stored_partial). Real numbers; metrics independent of time."
  },
  {
   "property": "C139",
   "status": "partial",
   "theorems": [
    "Nubhlight.TracerPush.C139_full_false",
    "Nubhlight.TracerPush.C139_logged_partial",
    "Nubhlight.TracerPush.C139_logged_unmarked",
    "Nubhlight.TracerPush.C139_marks",
    "Nubhlight.TracerPush.C139_prune"
   ],
   "note": "Removal exact (C139_prune), marks exact in every step of a run (C139_marks), number logged = number present + removed in the step (C139_logged_partial), right when no zone with tracers is marked (C139_logged_unmarked). False in general: the counter is not reduced (C139_full_false). Delivery of tracers between ranks is a hypothesis (C135)."
  },
  {
   "property": "C140",
   "status": "partial",
   "theorems": [
    "Nubhlight.EosInvert.C140_accurate_partial",
    "Nubhlight.EosInvert.C140_enthalpy_never_stops",
    "Nubhlight.EosInvert.C140_enthalpy_partial",
    "Nubhlight.EosInvert.C140_full_false",
    "Nubhlight.EosInvert.C140_never_stops",
    "Nubhlight.EosInvert.C140_pressure_partial",
    "Nubhlight.EosInvert.C140_roundtrip_partial"
   ],
   "note": "The search ends and never stops the program, from energy (C140_never_stops) and enthalpy (C140_enthalpy_never_stops), for every input. Energy reproduced (C140_accurate_partial), temperature recovered (C140_roundtrip_partial), pressure and enthalpy (C140_pressure_partial, C140_enthalpy_partial) if the bounds as looked up do not cut the value. False otherwise: the bounds are read at wrong places (C34) and cut an energy inside the table by half a decade (C140_full_false). Real numbers; energy shift zero."
  },
  {
   "property": "C141",
   "status": "partial",
   "theorems": [
    "Nubhlight.ArrayIO.C141_buffer",
    "Nubhlight.ArrayIO.C141_buffer_full",
    "Nubhlight.ArrayIO.C141_full_false",
    "Nubhlight.ArrayIO.C141_place_conn",
    "Nubhlight.ArrayIO.C141_place_faces",
    "Nubhlight.ArrayIO.C141_place_grid",
    "Nubhlight.ArrayIO.C141_place_lead",
    "Nubhlight.ArrayIO.C141_place_tensor",
    "Nubhlight.ArrayIO.C141_place_vec",
    "Nubhlight.ArrayIO.C141_reread_ghosts",
    "Nubhlight.ArrayIO.C141_reread_grid",
    "Nubhlight.ArrayIO.C141_reread_lead",
    "Nubhlight.ArrayIO.C141_reread_vec",
    "Nubhlight.ArrayIO.C141_sole",
    "Nubhlight.ArrayIO.C141_sole_read",
    "Nubhlight.ArrayIO.C141_spectrum",
    "Nubhlight.ArrayIO.C141_xbl"
   ],
   "note": "Every number at its place (C141_place_*), reread on any division (C141_reread_*), ghost zones kept, output-rank arrays (C141_sole*), buffers of the grid file (C141_buffer*): proved for all grids and even divisions. False: a restart rounds the spectrum to single precision (C141_spectrum) and the time component of Xbl is never set (C141_xbl), C141_full_false. HDF5 taken at its specification."
  },
  {
   "property": "C142",
   "status": "proved",
   "theorems": [
    "Nubhlight.TorusField.C142_curl",
    "Nubhlight.TorusField.C142_ranks",
    "Nubhlight.TorusField.C142_toroidal"
   ],
   "note": "For any potential (C142_curl), for the fields assembled from all ranks on any even division with a common factor and a second potential (C142_ranks), and for the toroidal field (C142_toroidal). The density may not depend on azimuth, as in the problems."
  },
  {
   "property": "C143",
   "status": "partial",
   "theorems": [
    "Nubhlight.TorusField.C143_classic_division_partial",
    "Nubhlight.TorusField.C143_classic_partial",
    "Nubhlight.TorusField.C143_full_false",
    "Nubhlight.TorusField.C143_loops_false",
    "Nubhlight.TorusField.C143_loops_one",
    "Nubhlight.TorusField.C143_net_azimuth_partial",
    "Nubhlight.TorusField.C143_net_equator",
    "Nubhlight.TorusField.C143_net_latitude_false",
    "Nubhlight.TorusField.C143_net_strength_partial",
    "Nubhlight.TorusField.C143_toroidal_each",
    "Nubhlight.TorusField.C143_toroidal_empty",
    "Nubhlight.TorusField.C143_toroidal_uneven"
   ],
   "note": "Classic configuration: beta as asked for and the same on any division (C143_classic_*). False for the toroidal one, where bsq_max is not reduced over ranks: each rank normalises alone (C143_toroidal_each, _uneven) and a rank outside the torus divides by zero (C143_toroidal_empty), C143_full_false. Net flux right only if the grid is not divided in radius or latitude (C143_net_azimuth_partial, C143_net_strength_partial, C143_net_latitude_false). Loops of MAD == 0 use constants with more than one process (C143_loops_false)."
  },
  {
   "property": "C144",
   "status": "partial",
   "theorems": [
    "Nubhlight.TorusInit.C144_bondi",
    "Nubhlight.TorusInit.C144_full_false",
    "Nubhlight.TorusInit.C144_radial_wrong",
    "Nubhlight.TorusInit.C144_torus_partial"
   ],
   "note": "Azimuthal velocities of tori (C144_torus_partial) and any radial velocity of spherical inflow (C144_bondi), in every zone outside the ergosphere. False for tori with a radial velocity: coord_transform multiplies by dx/dX instead of its inverse (C144_radial_wrong, C144_full_false); the tori shipped have none."
  },
  {
   "property": "C145",
   "status": "partial",
   "theorems": [
    "Nubhlight.TorusInit.C145_edge",
    "Nubhlight.TorusInit.C145_equilibrium_partial",
    "Nubhlight.TorusInit.C145_full_false",
    "Nubhlight.TorusInit.C145_stationary",
    "Nubhlight.TorusInit.C145_table_no_offset_partial",
    "Nubhlight.TorusInit.C145_table_partial"
   ],
   "note": "Gamma law: in equilibrium along every curve (C145_equilibrium_partial), stationary at rmax (C145_stationary), least values at the inner edge (C145_edge). Tabulated equation of state: the pressure gradient is off by exp(lnh)/(exp(lnh)+hm1_min) (C145_table_partial), so not in equilibrium unless hm1_min is zero (C145_table_no_offset_partial, C145_full_false). Real arithmetic; outside horizon and ergosphere, off the axis; without the random change of the energy; the table lookup itself is an assumed adiabat obeying the first law."
  },
  {
   "property": "C146",
   "status": "partial",
   "theorems": [
    "Nubhlight.EntropyCurve.C146_before_table",
    "Nubhlight.EntropyCurve.C146_curve_partial",
    "Nubhlight.EntropyCurve.C146_extrapolated",
    "Nubhlight.EntropyCurve.C146_full_false",
    "Nubhlight.EntropyCurve.C146_gas_partial",
    "Nubhlight.EntropyCurve.C146_least",
    "Nubhlight.EntropyCurve.C146_spacing"
   ],
   "note": "Stored temperatures have the entropy asked for at each density of the curve (C146_curve_partial), and gas at the first density of the curve has it (C146_gas_partial). False otherwise: the temperature of the curve is looked up with the spacing of one density fewer (C146_spacing, C146_full_false); an entropy the table does not have is reported as found, at temperatures far outside the table (C146_extrapolated); the array of densities is read before its start (C146_before_table). Real arithmetic."
  },
  {
   "property": "C147",
   "status": "proved",
   "theorems": [
    "Nubhlight.Compton.C147_falls",
    "Nubhlight.Compton.C147_range",
    "Nubhlight.Compton.C147_value"
   ],
   "note": "Equal to the integral above the series, within one part in 10^13 below; positive, at most one, strictly falling. Real arithmetic."
  },
  {
   "property": "C148",
   "status": "partial",
   "theorems": [
    "Nubhlight.Compton.C148_average",
    "Nubhlight.Compton.C148_cold_partial",
    "Nubhlight.Compton.C148_distribution",
    "Nubhlight.Compton.C148_energetic",
    "Nubhlight.Compton.C148_full_false",
    "Nubhlight.Compton.C148_table",
    "Nubhlight.Compton.C148_thomson"
   ],
   "note": "The thermal average is computed at every energy and temperature, is not negative, falls with energy and is at most its Thomson limit, which is the number of electrons summed over (C148_table, C148_thomson); K_2 is any positive function; that the sums are close to the integrals is not shown. For cold electrons the cross section is that at rest if the photon is soft or the product of energy and temperature is at least a millionth (C148_cold_partial); false otherwise: energetic photons on cold electrons get the Thomson cross section (C148_energetic, C148_full_false)."
  },
  {
   "property": "C149",
   "status": "partial",
   "theorems": [
    "Nubhlight.Compton.C149_chance",
    "Nubhlight.Compton.C149_choice_partial",
    "Nubhlight.Compton.C149_energy",
    "Nubhlight.Compton.C149_full_false",
    "Nubhlight.Compton.C149_halved",
    "Nubhlight.Compton.C149_shell"
   ],
   "note": "Energy and mass shell exact (C149_energy, C149_shell: off by the number added to the speed); choice in proportion within a million draws (C149_choice_partial, C149_chance). False beyond: the random numbers are halved (C149_halved, C149_full_false). That draws follow the thermal distribution is C97. Auxiliary directions parallel to the packet are excluded."
  },
  {
   "property": "C150",
   "status": "partial",
   "theorems": [
    "Nubhlight.Compton.C150_electron_partial",
    "Nubhlight.Compton.C150_full_false",
    "Nubhlight.Compton.C150_rest_partial"
   ],
   "note": "Moving electrons without the number added to the speed in boost (C150_electron_partial), electrons at rest as coded (C150_rest_partial). False exactly for moving electrons with that number (C150_full_false); C71_close bounds the error of each boost."
  },
  {
   "property": "C151",
   "status": "partial",
   "theorems": [
    "Nubhlight.Compton.C151_electrons",
    "Nubhlight.Compton.C151_full_false",
    "Nubhlight.Compton.C151_half",
    "Nubhlight.Compton.C151_nucleons_partial"
   ],
   "note": "Protons and neutrons (C151_nucleons_partial). False for alpha particles and heavy nuclei, half of which are missing, at half their temperature (C151_half, C151_full_false)."
  },
  {
   "property": "C152",
   "status": "proved",
   "theorems": [
    "Nubhlight.RadMessages.C152_completes",
    "Nubhlight.RadMessages.C152_conserved",
    "Nubhlight.RadMessages.C152_step"
   ],
   "note": "Programs of ranks with all messages of packets and of sources (C152_step: what any schedule leaves is a step of C134 followed by the exchange of C40; C152_conserved for any number of steps; C152_completes). Hypotheses are those under which a step conserves (C134, C117: lossless inputs, no outflow) and packets move less than one rank. The hydrodynamic corrector is one collective instruction which keeps the total; its messages are in C132. Exact arithmetic."
  },
  {
   "property": "C153",
   "status": "partial",
   "theorems": [
    "Nubhlight.ScatterFrame.C153_altered",
    "Nubhlight.ScatterFrame.C153_full_false",
    "Nubhlight.ScatterFrame.C153_refused",
    "Nubhlight.ScatterFrame.C153_result",
    "Nubhlight.ScatterFrame.C153_scatters_partial"
   ],
   "note": "What comes out is characterised everywhere (C153_result); outside ergospheres the full claim (C153_scatters_partial), for components below a googol. False inside: wave vectors of negative energy at infinity are replaced by others (C153_altered, Kerr-Schild metric of spin 15/16 at radius 3/2) and packets of negative energy at infinity never scatter (C153_refused, C153_full_false)."
  },
  {
   "property": "C154",
   "status": "proved",
   "theorems": [
    "Nubhlight.Units.C154_depth",
    "Nubhlight.Units.C154_gas",
    "Nubhlight.Units.C154_magnetised",
    "Nubhlight.Units.C154_packet"
   ],
   "note": "For all positive constants of nature and units; C154_depth and C154_magnetised use the metric and fluid of C119 and C120."
  },
  {
   "property": "C155",
   "status": "partial",
   "theorems": [
    "Nubhlight.Units.C155_electrons_partial",
    "Nubhlight.Units.C155_full_false",
    "Nubhlight.Units.C155_partial",
    "Nubhlight.Units.C155_size"
   ],
   "note": "They have MP/(MP+ME) of it (C155_partial, C155_electrons_partial), with the constants of the code one part in 1837 less (C155_size): Ne_unit divides by the mass of a hydrogen atom, the unit of temperature by that of a proton. False as stated (C155_full_false); electrons of the pressure of the ions are colder, so that heat is exchanged."
  },
  {
   "property": "C156",
   "status": "proved",
   "theorems": [
    "Nubhlight.RadialGrid.C156_centre",
    "Nubhlight.RadialGrid.C156_few",
    "Nubhlight.RadialGrid.C156_grid",
    "Nubhlight.RadialGrid.C156_horizon"
   ],
   "note": "For every horizon radius and outer radius beyond it; with five zones or fewer the grid runs inwards (C156_few). The centre of the sixth zone is exactly on the horizon (C156_centre), see C158."
  },
  {
   "property": "C157",
   "status": "proved",
   "theorems": [
    "Nubhlight.RadialGrid.C157_isco"
   ],
   "note": "Orbits turning with the hole, for spins of either sign the formula depends on the size only."
  },
  {
   "property": "C158",
   "status": "partial",
   "theorems": [
    "Nubhlight.Bondi.C158_exits",
    "Nubhlight.Bondi.C158_found_partial",
    "Nubhlight.Bondi.C158_full_false",
    "Nubhlight.Bondi.C158_horizon",
    "Nubhlight.Bondi.C158_near",
    "Nubhlight.Bondi.C158_sonic",
    "Nubhlight.Bondi.C158_steady_partial",
    "Nubhlight.Bondi.C158_wrong"
   ],
   "note": "For a hole without spin: where the temperature solves the equation the state is that of the steady flow (C158_steady_partial), with the sonic point at radius eight (C158_sonic). What get_T returns: C158_found_partial. With index 5/3 it ends the run at every radius from 100 on and at none below 75 (C158_exits, C158_near); with index 13/12 it returns a temperature that is no solution (C158_wrong); zones up to the sixth get no number as velocity (C158_horizon). False as stated (C158_full_false). That the iteration ends is not proved."
  },
  {
   "property": "C159",
   "status": "partial",
   "theorems": [
    "Nubhlight.Config.C159_accepted_partial",
    "Nubhlight.Config.C159_full_false",
    "Nubhlight.Config.C159_missing",
    "Nubhlight.Config.C159_no_default",
    "Nubhlight.Config.C159_stops"
   ],
   "note": "True if the script gives a value to every name of a fixed list per configuration (C159_accepted_partial; the list has no default in the core, C159_no_default) and names are not prefixes of others. No parameter is ever left without a value by a run that starts (C159_missing). False as stated: with a table and the fallback to an ideal gas the build does not ask for the index of the gas but the program does (C159_full_false); both opacity tables never build (C159_stops). What Python writes for a value is a parameter of the model, see C160."
  },
  {
   "property": "C160",
   "status": "partial",
   "theorems": [
    "Nubhlight.Config.C160_changed",
    "Nubhlight.Config.C160_close",
    "Nubhlight.Config.C160_compile_partial",
    "Nubhlight.Config.C160_exact",
    "Nubhlight.Config.C160_full_false",
    "Nubhlight.Config.C160_integer",
    "Nubhlight.Config.C160_runtime_partial"
   ],
   "note": "Exact if and only if the number has at most seven (run-time) or six (compile-time) significant digits (C160_exact), otherwise off by at most half a unit of the last (C160_close). False as stated: the default index of the gas, 5/3, arrives as 1.666667 (C160_changed, C160_full_false)."
  },
  {
   "property": "C161",
   "status": "partial",
   "theorems": [
    "Nubhlight.Config.C161_changed_partial",
    "Nubhlight.Config.C161_courant",
    "Nubhlight.Config.C161_full_false",
    "Nubhlight.Config.C161_spin"
   ],
   "note": "True if the name occurs in no other line (C161_changed_partial). False as stated: changing the spin also sets the index of the gas and the shape of the grid to it (C161_spin), changing the Courant number unsets that for cooling (C161_courant, C161_full_false), and the program accepts both files."
  },
  {
   "property": "C162",
   "status": "proved",
   "theorems": [
    "Nubhlight.TableSmooth.C162_any_sort",
    "Nubhlight.TableSmooth.C162_bounds",
    "Nubhlight.TableSmooth.C162_holes_stay",
    "Nubhlight.TableSmooth.C162_outliers"
   ],
   "note": "C162_outliers for every table size and sort, C162_bounds, C162_any_sort. Holes are never filled in tables of positive numbers (C162_holes_stay): a consequence of measuring the distance in units of the median. Rounding left out."
  },
  {
   "property": "C163",
   "status": "partial",
   "theorems": [
    "Nubhlight.TableFallback.C163_corner_partial",
    "Nubhlight.TableFallback.C163_floor",
    "Nubhlight.TableFallback.C163_full_false",
    "Nubhlight.TableFallback.C163_one_polytrope_partial"
   ],
   "note": "One polytrope per electron fraction (C163_one_polytrope_partial), through the corner of the table (C163_corner_partial); gas at its floor uses the table (C163_floor). False as stated: the polytrope is that of the cold corner whatever the temperature, so the pressure of hot gas jumps (C163_full_false)."
  },
  {
   "property": "C164",
   "status": "partial",
   "theorems": [
    "Nubhlight.TableFallback.C164_always",
    "Nubhlight.TableFallback.C164_full_false",
    "Nubhlight.TableFallback.C164_missing_factor"
   ],
   "note": "The program leaves out the specific enthalpy (C164_missing_factor) and so reports 1.1 for all matter with sound faster than 1 cm/s (C164_always). C164_full_false: a gas of index 5/3."
  },
  {
   "property": "C165",
   "status": "partial",
   "theorems": [
    "Nubhlight.Composition.C165_charge_partial",
    "Nubhlight.Composition.C165_fractions_partial",
    "Nubhlight.Composition.C165_full_false"
   ],
   "note": "Fractions are valid everywhere in the table below the upper density edge (C165_fractions_partial), and the charge is right where there are no heavy nuclei (C165_charge_partial). False as stated with heavy nuclei, whose fraction, charge and mass are interpolated separately (C165_full_false)."
  },
  {
   "property": "C166",
   "status": "partial",
   "theorems": [
    "Nubhlight.SynchTable.C166_between_partial",
    "Nubhlight.SynchTable.C166_beyond",
    "Nubhlight.SynchTable.C166_full_false",
    "Nubhlight.SynchTable.C166_hot",
    "Nubhlight.SynchTable.C166_hottest",
    "Nubhlight.SynchTable.C166_last",
    "Nubhlight.SynchTable.C166_points_partial"
   ],
   "note": "Exact at the points of the table (C166_points_partial), the weighted geometric mean between them (C166_between_partial), zero beyond the last (C166_beyond). False as stated: at the highest temperature (C166_hottest) and the last frequency of the tables (C166_last) the program reads beyond them (C166_full_false). Below the lowest frequency of the table a power law is used, not covered."
  },
  {
   "property": "C167",
   "status": "partial",
   "theorems": [
    "Nubhlight.Xdmf.C167_beyond",
    "Nubhlight.Xdmf.C167_corners",
    "Nubhlight.Xdmf.C167_extent",
    "Nubhlight.Xdmf.C167_full_false",
    "Nubhlight.Xdmf.C167_inside",
    "Nubhlight.Xdmf.C167_items_partial",
    "Nubhlight.Xdmf.C167_jrad",
    "Nubhlight.Xdmf.C167_variables",
    "Nubhlight.Xdmf.C167_vectors"
   ],
   "note": "Everything but vectors exists if the part shown ends in the grid (C167_items_partial), variables have their names (C167_variables), extent for radial grids (C167_extent, C167_inside). False as stated: vectors are looked for in the index itself (C167_vectors), Jrad has another shape (C167_jrad), large radii (C167_beyond); C167_full_false."
  },
  {
   "property": "C168",
   "status": "partial",
   "theorems": [
    "Nubhlight.Burrows.C168_affine",
    "Nubhlight.Burrows.C168_bounds",
    "Nubhlight.Burrows.C168_full_false",
    "Nubhlight.Burrows.C168_inside_partial",
    "Nubhlight.Burrows.C168_reads"
   ],
   "note": "All reads are in bounds for all states (C168_reads); with the electron fraction in range interpolation is exact for first order polynomials (C168_inside_partial) and within the bounds of the table (C168_bounds). False as stated: electron fractions outside are extrapolated (C168_affine, C168_full_false)."
  },
  {
   "property": "C169",
   "status": "partial",
   "theorems": [
    "Nubhlight.Burrows.C169_below",
    "Nubhlight.Burrows.C169_energies_partial",
    "Nubhlight.Burrows.C169_extrapolates",
    "Nubhlight.Burrows.C169_fourth",
    "Nubhlight.Burrows.C169_full_false",
    "Nubhlight.Burrows.C169_groups",
    "Nubhlight.Burrows.C169_species_partial"
   ],
   "note": "Energies in, above and more than a spacing below the range (C169_energies_partial), three species (C169_species_partial), the groups (C169_groups). False as stated: less than one spacing below the range values are extrapolated (C169_below, C169_extrapolates) and a fourth species gets nothing, fewer than three overrun the array (C169_fourth, C169_full_false)."
  },
  {
   "property": "C170",
   "status": "partial",
   "theorems": [
    "Nubhlight.Passive.C170_floors",
    "Nubhlight.Passive.C170_full_false",
    "Nubhlight.Passive.C170_outflow",
    "Nubhlight.Passive.C170_outflow_witness",
    "Nubhlight.Passive.C170_roundtrip",
    "Nubhlight.Passive.C170_roundtrip_conserved",
    "Nubhlight.Passive.C170_runs_exist",
    "Nubhlight.Passive.C170_uniform_partial",
    "Nubhlight.Passive.C170_zone"
   ],
   "note": "Recovery (C170_roundtrip, C170_roundtrip_conserved), floors (C170_floors), uniform numbers over any run in which no boundary stops inflow of mass (C170_uniform_partial, C170_runs_exist), the exact value after a step in general (C170_zone). False as stated: boundaries without inflow stop the mass but not the scalar (C170_outflow, C170_outflow_witness, C170_full_false). Boundaries set by the problem and radiation are left out."
  },
  {
   "property": "C171",
   "status": "partial",
   "theorems": [
    "Nubhlight.FloatTime.C171_exact_partial",
    "Nubhlight.FloatTime.C171_full_false",
    "Nubhlight.FloatTime.C171_lands",
    "Nubhlight.FloatTime.C171_lands_close",
    "Nubhlight.FloatTime.C171_overshoots",
    "Nubhlight.FloatTime.C171_stall_witness",
    "Nubhlight.FloatTime.C171_stalls",
    "Nubhlight.FloatTime.C171_terminates"
   ],
   "note": "Monotone and exact landing once a step starts at or after half of the final time (C171_lands, C171_exact_partial), within one last place before that (C171_lands_close), finitely many steps when they exceed the last place of the final time (C171_terminates). False as stated: a run of two steps ends one last place beyond (C171_overshoots, C171_full_false), and steps below half a last place of the time never end, with or without the rescue of SMALL (C171_stalls, C171_stall_witness)."
  },
  {
   "property": "C172",
   "status": "partial",
   "theorems": [
    "Nubhlight.FloatZone.C172_centre",
    "Nubhlight.FloatZone.C172_edge",
    "Nubhlight.FloatZone.C172_full_false",
    "Nubhlight.FloatZone.C172_inside_partial",
    "Nubhlight.FloatZone.C172_value",
    "Nubhlight.FloatZone.C172_zone"
   ],
   "note": "Centres (C172_centre), positions away from faces and the neighbours near them (C172_zone, C172_value), always inside the arrays (C172_inside_partial). False as stated: the largest number below the end of the rank is found in a ghost zone (C172_edge, C172_full_false)."
  },
  {
   "property": "C173",
   "status": "partial",
   "theorems": [
    "Nubhlight.TracerFiles.C173_full_false",
    "Nubhlight.TracerFiles.C173_jump_witness",
    "Nubhlight.TracerFiles.C173_jumps",
    "Nubhlight.TracerFiles.C173_one_process",
    "Nubhlight.TracerFiles.C173_parallel",
    "Nubhlight.TracerFiles.C173_radius_partial",
    "Nubhlight.TracerFiles.C173_serial"
   ],
   "note": "Radius: each tracer once at its first dump outside, for one process (C173_serial), the same for any number (C173_parallel), as a command (C173_radius_partial). False with a temperature: a tracer that cools past it between dumps is not collected (C173_jumps, C173_jump_witness), and with one process the temperature is not used (C173_one_process); C173_full_false. Files that cannot be read are left out."
  },
  {
   "property": "C174",
   "status": "proved",
   "theorems": [
    "Nubhlight.TracerFiles.C174_ids",
    "Nubhlight.TracerFiles.C174_loaded",
    "Nubhlight.TracerFiles.C174_pruned",
    "Nubhlight.TracerFiles.C174_saved",
    "Nubhlight.TracerFiles.C174_split",
    "Nubhlight.TracerFiles.C174_trace",
    "Nubhlight.TracerFiles.C174_unique"
   ],
   "note": "One record per time, in order, all times (C174_trace, C174_unique); pruning and choosing (C174_pruned, C174_loaded); directories (C174_split); files in the end (C174_saved)."
  },
  {
   "property": "C175",
   "status": "partial",
   "theorems": [
    "Nubhlight.TracerPrune.C175_full_false",
    "Nubhlight.TracerPrune.C175_kept_partial",
    "Nubhlight.TracerPrune.C175_latitude",
    "Nubhlight.TracerPrune.C175_poles_kept",
    "Nubhlight.TracerPrune.C175_radius"
   ],
   "note": "Radius, height and latitude (C175_radius, C175_latitude, C175_kept_partial). False for poles: nothing is removed (C175_poles_kept); and exactly at a radius (C175_full_false)."
  },
  {
   "property": "C176",
   "status": "proved",
   "theorems": [
    "Nubhlight.FloatCT.C176_drifts",
    "Nubhlight.FloatCT.C176_history",
    "Nubhlight.FloatCT.C176_reported",
    "Nubhlight.FloatCT.C176_step"
   ],
   "note": "One step (C176_step), any history (C176_history), the reported number (C176_reported), and that the divergence does move, with no electric field at all (C176_drifts). Numbers are assumed not to be so small that the format has no relative precision; overflow is not modelled; b^0 and the four-velocity are arbitrary numbers; operations are rounded one by one (no fused multiply-add)."
  },
  {
   "property": "C177",
   "status": "partial",
   "theorems": [
    "Nubhlight.StartFluid.C177_full_false",
    "Nubhlight.StartFluid.C177_ignored",
    "Nubhlight.StartFluid.C177_named_ghosts",
    "Nubhlight.StartFluid.C177_named_partial",
    "Nubhlight.StartFluid.C177_not_there",
    "Nubhlight.StartFluid.C177_problem"
   ],
   "note": "Proved for a file with the variables in a dataset p, on any two divisions (C177_named_partial, C177_named_ghosts). The program writes them as P: with any restart file or dump of the program, or none, every variable of every zone is zero (C177_not_there, C177_ignored), so the full claim is false (C177_full_false). Floors applied afterwards are C16."
  },
  {
   "property": "C178",
   "status": "partial",
   "theorems": [
    "Nubhlight.DumpAverage.C178_dump_id",
    "Nubhlight.DumpAverage.C178_example",
    "Nubhlight.DumpAverage.C178_full_false",
    "Nubhlight.DumpAverage.C178_integers",
    "Nubhlight.DumpAverage.C178_last",
    "Nubhlight.DumpAverage.C178_mean_partial",
    "Nubhlight.DumpAverage.C178_missing"
   ],
   "note": "Mean of the dumps but the last for dumps with floating-point arrays only (C178_mean_partial); any dump of the program stops the script (C178_integers, C178_dump_id), the last dump has no influence (C178_last), an array missing in a later dump stops it (C178_missing). Full claim false (C178_full_false)."
  },
  {
   "property": "C179",
   "status": "partial",
   "theorems": [
    "Nubhlight.DumpAverage.C179_amount_partial",
    "Nubhlight.DumpAverage.C179_constant",
    "Nubhlight.DumpAverage.C179_cut",
    "Nubhlight.DumpAverage.C179_full_false",
    "Nubhlight.DumpAverage.C179_linear",
    "Nubhlight.DumpAverage.C179_metric",
    "Nubhlight.DumpAverage.C179_metric_equal",
    "Nubhlight.DumpAverage.C179_range"
   ],
   "note": "Range, constants, linearity proved; the amount is kept within factors 1/3 and 4/3 times N/(N-1) (C179_amount_partial); which axes the metric is set along (C179_metric, C179_metric_equal). Full claim false (C179_full_false, C179_cut). scipy.integrate.simps is modelled from its source."
  },
  {
   "property": "C180",
   "status": "proved",
   "theorems": [
    "Nubhlight.DumpAverage.C180_linear",
    "Nubhlight.DumpAverage.C180_shell",
    "Nubhlight.DumpAverage.C180_spherical",
    "Nubhlight.DumpAverage.C180_two_dimensions",
    "Nubhlight.DumpAverage.C180_weighted"
   ],
   "note": "C180_weighted, C180_spherical, C180_linear, C180_two_dimensions, C180_shell."
  },
  {
   "property": "C181",
   "status": "partial",
   "theorems": [
    "Nubhlight.DumpAverage.C181_copies_partial",
    "Nubhlight.DumpAverage.C181_full_false",
    "Nubhlight.DumpAverage.C181_others"
   ],
   "note": "The values put in are copies of the next zone outside (C181_copies_partial, C181_others), so straight lines are not kept (C181_full_false)."
  },
  {
   "property": "C182",
   "status": "partial",
   "theorems": [
    "Nubhlight.PlaneWave.C182_full_false",
    "Nubhlight.PlaneWave.C182_one_dim_partial",
    "Nubhlight.PlaneWave.C182_slow_sum",
    "Nubhlight.PlaneWave.C182_three_dim_partial",
    "Nubhlight.PlaneWave.C182_two_dim_iff",
    "Nubhlight.PlaneWave.C182_two_dim_partial"
   ],
   "note": "No divergence in one dimension (C182_one_dim_partial), in two with equal numbers of zones (C182_two_dim_partial) and, for the slow and fast mode with at least three zones each way, only then (C182_two_dim_iff); in three with equal numbers of zones, for the slow mode up to 3e-16 (C182_three_dim_partial, C182_slow_sum). Full claim false (C182_full_false). Box of the default size."
  },
  {
   "property": "C183",
   "status": "proved",
   "theorems": [
    "Nubhlight.PlaneWave.C183_mode"
   ],
   "note": "C183_mode: residuals of the eight linear equations at most 1e-11 of the amplitude. The Alfven mode of three dimensions moves opposite to the others."
  },
  {
   "property": "C184",
   "status": "partial",
   "theorems": [
    "Nubhlight.Advection.C184_amount_partial",
    "Nubhlight.Advection.C184_back",
    "Nubhlight.Advection.C184_diagonal",
    "Nubhlight.Advection.C184_full_false",
    "Nubhlight.Advection.C184_not_numbers",
    "Nubhlight.Advection.C184_speed_partial",
    "Nubhlight.Advection.C184_turned_away"
   ],
   "note": "Proved for speeds from zero up to 1/sqrt 2 (C184_speed_partial) and the diagonal problems (C184_diagonal, C184_back). Higher speeds are turned away (C184_turned_away), negative ones lose their sign (C184_amount_partial, C184_full_false), speeds below -1 start with variables that are not numbers (C184_not_numbers)."
  },
  {
   "property": "C185",
   "status": "partial",
   "theorems": [
    "Nubhlight.Advection.C185_direction_partial",
    "Nubhlight.Advection.C185_full_false",
    "Nubhlight.Advection.C185_speed_partial",
    "Nubhlight.Advection.C185_three_not_back"
   ],
   "note": "Wave vector and direction as claimed (C185_direction_partial); the speed is 0.1/sqrt 1.01, not 0.1 (C185_speed_partial, C185_full_false), so the wave is not back at the end in three dimensions (C185_three_not_back)."
  },
  {
   "property": "C186",
   "status": "partial",
   "theorems": [
    "Nubhlight.GammaTable.C186_energy_of_temperature",
    "Nubhlight.GammaTable.C186_enthalpy_partial",
    "Nubhlight.GammaTable.C186_from_pressure_partial",
    "Nubhlight.GammaTable.C186_full_false",
    "Nubhlight.GammaTable.C186_pressure",
    "Nubhlight.GammaTable.C186_range",
    "Nubhlight.GammaTable.C186_thin"
   ],
   "note": "From the energy as claimed (C186_pressure), energy from temperature exact (C186_energy_of_temperature), range (C186_range). From enthalpy and pressure proved away from the lowest temperature and the last density cell (C186_enthalpy_partial, C186_from_pressure_partial); full claim false there since bounds are looked up wrongly (C186_full_false). In the lowest percent of the density range the energy is ignored (C186_thin)."
  },
  {
   "property": "C187",
   "status": "proved",
   "theorems": [
    "Nubhlight.GammaTable.C187_line",
    "Nubhlight.GammaTable.C187_smoothing"
   ],
   "note": "C187_smoothing, C187_line; sound speeds within the limits the reader keeps (10 SMALL and 1 - 10 SMALL), density below the top of the table."
  },
  {
   "property": "C188",
   "status": "proved",
   "theorems": [
    "Nubhlight.LogRead.C188_all",
    "Nubhlight.LogRead.C188_columns",
    "Nubhlight.LogRead.C188_row"
   ],
   "note": "C188_columns, C188_all, C188_row, for default arguments of the reader."
  },
  {
   "property": "C189",
   "status": "partial",
   "theorems": [
    "Nubhlight.LogRead.C189_full_false",
    "Nubhlight.LogRead.C189_one_session",
    "Nubhlight.LogRead.C189_order",
    "Nubhlight.LogRead.C189_repeated",
    "Nubhlight.LogRead.C189_restart_near_partial",
    "Nubhlight.LogRead.C189_restart_partial"
   ],
   "note": "Order and origin hold for every file (C189_order). The claim on sessions is false (C189_full_false, C189_repeated); what is read after one restart is given by C189_restart_partial and C189_restart_near_partial, and C189_one_session for none."
  },
  {
   "property": "C190",
   "status": "partial",
   "theorems": [
    "Nubhlight.LogRead.C190_full_false",
    "Nubhlight.LogRead.C190_read_partial"
   ],
   "note": "C190_read_partial: rows further apart than a ten thousandth of the time. False in general: the time is printed with five digits (C190_full_false)."
  },
  {
   "property": "C191",
   "status": "proved",
   "theorems": [
    "Nubhlight.DumpVectors.C191_invariants",
    "Nubhlight.DumpVectors.C191_rounding",
    "Nubhlight.DumpVectors.C191_state"
   ],
   "note": "C191_state, C191_invariants for states whose spatial norm is not negative, as it never is in a Lorentzian geometry without rounding; C191_rounding for slightly negative ones. Single precision of the dump is not modelled."
  },
  {
   "property": "C192",
   "status": "partial",
   "theorems": [
    "Nubhlight.DumpVectors.C192_bl_partial",
    "Nubhlight.DumpVectors.C192_flat_partial",
    "Nubhlight.DumpVectors.C192_full_false",
    "Nubhlight.DumpVectors.C192_transposed",
    "Nubhlight.DumpVectors.C192_vectors"
   ],
   "note": "Contravariant vectors as claimed (C192_vectors). Covariant ones are multiplied without the transpose: right for t, r, theta, phi exactly where the angle does not depend on the radial coordinate (C192_bl_partial) and in flat space (C192_flat_partial), wrong otherwise (C192_full_false); with the transpose they would be right (C192_transposed)."
  },
  {
   "property": "C193",
   "status": "partial",
   "theorems": [
    "Nubhlight.DumpVectors.C193_full_false",
    "Nubhlight.DumpVectors.C193_total",
    "Nubhlight.DumpVectors.C193_traceFree_partial",
    "Nubhlight.DumpVectors.C193_traces"
   ],
   "note": "C193_total, C193_traces; magnetic trace-free part and its size in C193_traceFree_partial. The fluid one has a trace (C193_full_false)."
  },
  {
   "property": "C194",
   "status": "partial",
   "theorems": [
    "Nubhlight.DumpRead.C194_content_partial",
    "Nubhlight.DumpRead.C194_full_false",
    "Nubhlight.DumpRead.C194_light",
    "Nubhlight.DumpRead.C194_listed",
    "Nubhlight.DumpRead.C194_loads_partial"
   ],
   "note": "C194_loads_partial says exactly which dumps load: full ones, with angular distributions only for neutrinos. Reduced dumps do not (C194_full_false), some full ones for photons neither (C194_light); the sound speed is never loaded (C194_content_partial)."
  },
  {
   "property": "C195",
   "status": "partial",
   "theorems": [
    "Nubhlight.TestVerdict.C195_crash",
    "Nubhlight.TestVerdict.C195_equal_fails",
    "Nubhlight.TestVerdict.C195_full_false",
    "Nubhlight.TestVerdict.C195_hangs",
    "Nubhlight.TestVerdict.C195_lines",
    "Nubhlight.TestVerdict.C195_long",
    "Nubhlight.TestVerdict.C195_many",
    "Nubhlight.TestVerdict.C195_mean",
    "Nubhlight.TestVerdict.C195_no_verdict",
    "Nubhlight.TestVerdict.C195_nodes",
    "Nubhlight.TestVerdict.C195_single",
    "Nubhlight.TestVerdict.C195_suite_partial",
    "Nubhlight.TestVerdict.C195_two_points"
   ],
   "note": "Exact conditions for PASS in C195_single, C195_many; success of the suite in C195_suite_partial if no result of an earlier run is left over. Otherwise a crash can count as a pass (C195_full_false). The sum of deviations is divided by one less than their number (C195_two_points), zero over zero fails (C195_equal_fails), some tests never get a verdict (C195_no_verdict, C195_long), and much error output blocks the suite (C195_hangs)."
  },
  {
   "property": "C196",
   "status": "partial",
   "theorems": [
    "Nubhlight.YeDecay.C196_boost_rejects",
    "Nubhlight.YeDecay.C196_energy",
    "Nubhlight.YeDecay.C196_factor",
    "Nubhlight.YeDecay.C196_full_false",
    "Nubhlight.YeDecay.C196_rest_partial",
    "Nubhlight.YeDecay.C196_solves_program",
    "Nubhlight.YeDecay.C196_unique"
   ],
   "note": "The reference is the one solution of the average equation of the program (C196_solves_program, C196_unique, C196_energy), and that of gas that loses what it radiates if at rest (C196_rest_partial). In motion both have an extra factor u^0 (C196_full_false, C196_factor, C196_boost_rejects). The density is held fixed, fluctuations are averaged out."
  },
  {
   "property": "C197",
   "status": "partial",
   "theorems": [
    "Nubhlight.StartPackets.C197_compton_partial",
    "Nubhlight.StartPackets.C197_directions",
    "Nubhlight.StartPackets.C197_down_partial",
    "Nubhlight.StartPackets.C197_fields_partial",
    "Nubhlight.StartPackets.C197_full_false",
    "Nubhlight.StartPackets.C197_script",
    "Nubhlight.StartPackets.C197_temperature",
    "Nubhlight.StartPackets.C197_types",
    "Nubhlight.StartPackets.C197_up_partial",
    "Nubhlight.StartPackets.C197_waves"
   ],
   "note": "Wave vectors, directions, types, final temperature as claimed. The number of particles depends on the number of threads (exactly: C197_down_partial, C197_up_partial, C197_compton_partial), and entries are left unassigned (C197_fields_partial, C197_full_false)."
  },
  {
   "property": "C198",
   "status": "partial",
   "theorems": [
    "Nubhlight.StartPackets.C198_angles",
    "Nubhlight.StartPackets.C198_conversion_partial",
    "Nubhlight.StartPackets.C198_envelope",
    "Nubhlight.StartPackets.C198_full_false",
    "Nubhlight.StartPackets.C198_shallow"
   ],
   "note": "Angles as claimed (C198_envelope, C198_angles). The formulas hold where the negative part is the deep one (C198_conversion_partial), as in this test (C198_shallow), not otherwise (C198_full_false)."
  },
  {
   "property": "C199",
   "status": "proved",
   "theorems": [
    "Nubhlight.SodReference.C199_beginning",
    "Nubhlight.SodReference.C199_contact",
    "Nubhlight.SodReference.C199_ends",
    "Nubhlight.SodReference.C199_equations",
    "Nubhlight.SodReference.C199_order",
    "Nubhlight.SodReference.C199_pressure",
    "Nubhlight.SodReference.C199_relativity",
    "Nubhlight.SodReference.C199_scaled",
    "Nubhlight.SodReference.C199_shock",
    "Nubhlight.SodReference.C199_start"
   ],
   "note": "With respect to nonrelativistic gas dynamics. The program solves the relativistic equations; C199_relativity says by how much the reference misses their conservation of mass. The root finding itself is not modelled."
  },
  {
   "property": "C200",
   "status": "partial",
   "theorems": [
    "Nubhlight.RadKinds.C200_by_name",
    "Nubhlight.RadKinds.C200_full_false",
    "Nubhlight.RadKinds.C200_given",
    "Nubhlight.RadKinds.C200_neutrinos",
    "Nubhlight.RadKinds.C200_packets",
    "Nubhlight.RadKinds.C200_partial",
    "Nubhlight.RadKinds.C200_times"
   ],
   "note": "Neutrinos, and light asked for with True or 1 (C200_neutrinos, C200_partial). Light asked for by its name is given three types and is radiated three times (C200_by_name, C200_full_false)."
  },
  {
   "property": "C201",
   "status": "partial",
   "theorems": [
    "Nubhlight.ThermalTests.C201_fast",
    "Nubhlight.ThermalTests.C201_final_time",
    "Nubhlight.ThermalTests.C201_full_false",
    "Nubhlight.ThermalTests.C201_partial",
    "Nubhlight.ThermalTests.C201_rate",
    "Nubhlight.ThermalTests.C201_start"
   ],
   "note": "As built within 1e-5 at the start and 6e-4 in the rate (C201_partial). The option -fast makes the gas start a hundred times hotter than the reference (C201_fast, C201_full_false), and the exact rate has a factor mp/(mp+me) (C201_rate). Monte Carlo noise and absorption are left out."
  },
  {
   "property": "C202",
   "status": "proved",
   "theorems": [
    "Nubhlight.ThermalTests.C202_absorption",
    "Nubhlight.ThermalTests.C202_energy",
    "Nubhlight.ThermalTests.C202_equilibrium",
    "Nubhlight.ThermalTests.C202_number",
    "Nubhlight.ThermalTests.C202_source",
    "Nubhlight.ThermalTests.C202_start"
   ],
   "note": "The absorption agrees up to 1e-100 over the Planck function, where the series for small arguments is not used (C202_absorption). The solver of scipy is not modelled."
  },
  {
   "property": "C203",
   "status": "proved",
   "theorems": [
    "Nubhlight.FlattenRestart.C203_alphabetical",
    "Nubhlight.FlattenRestart.C203_exactly",
    "Nubhlight.FlattenRestart.C203_kept",
    "Nubhlight.FlattenRestart.C203_own",
    "Nubhlight.FlattenRestart.C203_padded",
    "Nubhlight.FlattenRestart.C203_plain",
    "Nubhlight.FlattenRestart.C203_read_once"
   ],
   "note": "C203_exactly: every process reads its own packets exactly if the names are in order; with plain numbers and more than ten processes they are not (C203_plain), and the exchange at restart (C40) has to move packets. The names used by the old format are not in the repository."
  },
  {
   "property": "C204",
   "status": "partial",
   "theorems": [
    "Nubhlight.TableTest.C204_exactly",
    "Nubhlight.TableTest.C204_full_false",
    "Nubhlight.TableTest.C204_infinite",
    "Nubhlight.TableTest.C204_nan",
    "Nubhlight.TableTest.C204_partial",
    "Nubhlight.TableTest.C204_small"
   ],
   "note": "Exact condition in C204_exactly; numbers in C204_partial. Results that are not-a-number are never noticed (C204_nan), and pressure from enthalpy and energy from pressure may be zero at small energies (C204_small, C204_full_false). Printing of errors with seven digits is left out."
  },
  {
   "property": "C205",
   "status": "partial",
   "theorems": [
    "Nubhlight.ResumedWeights.C205_energy",
    "Nubhlight.ResumedWeights.C205_exactly",
    "Nubhlight.ResumedWeights.C205_full_false",
    "Nubhlight.ResumedWeights.C205_partial",
    "Nubhlight.ResumedWeights.C205_rule",
    "Nubhlight.ResumedWeights.C205_tuning"
   ],
   "note": "True while the emission of the gas stays the same (C205_partial); otherwise weights after a stop are multiplied by the ratio of emissions now and at the last tuning (C205_exactly, C205_full_false). Tuning and mean energy are not affected (C205_tuning, C205_energy). The factors of the tuning are given numbers."
  },
  {
   "property": "C206",
   "status": "partial",
   "theorems": [
    "Nubhlight.TransformCheck.C206_back",
    "Nubhlight.TransformCheck.C206_expected",
    "Nubhlight.TransformCheck.C206_far",
    "Nubhlight.TransformCheck.C206_full_false",
    "Nubhlight.TransformCheck.C206_partial",
    "Nubhlight.TransformCheck.C206_recalculated",
    "Nubhlight.TransformCheck.C206_right_passes"
   ],
   "note": "Right files pass (C206_right_passes, regularising number taken as zero) and the recalculated matrices are those of the program (C206_recalculated); what passes is right near the hole (C206_partial). Beyond a radius of 300 even empty space passes (C206_far, C206_full_false)."
  },
  {
   "property": "C207",
   "status": "partial",
   "theorems": [
    "Nubhlight.Fluid.C207_across",
    "Nubhlight.Fluid.C207_aim",
    "Nubhlight.Fluid.C207_full_false",
    "Nubhlight.Fluid.C207_partial",
    "Nubhlight.Fluid.C207_slow"
   ],
   "note": "The velocity the routine works out keeps the electric field for every zone (C207_aim), but it is then completed with a wrong time component (C11): gas moving across the field leaves with velocities divided by its Lorentz factor (C207_across, C207_full_false), and no such gas leaves with a Lorentz factor above the square root of two (C207_slow, for velocities worked out below that of light). True for gas at rest (C207_partial)."
  },
  {
   "property": "C208",
   "status": "partial",
   "theorems": [
    "Nubhlight.Fluid.C208_added",
    "Nubhlight.Fluid.C208_density",
    "Nubhlight.Fluid.C208_failed",
    "Nubhlight.Fluid.C208_full_false",
    "Nubhlight.Fluid.C208_partial"
   ],
   "note": "The first half holds for every zone, geometry, floors and equation of state (C208_added), with what a failed recovery leaves (C208_failed). The second half is false: the density rises only by the missing density over the new Lorentz factor (C208_density), and with the floors of the program hot moving gas stays a third below its floor however exact the recovery (C208_full_false). True for gas recovered at rest (C208_partial)."
  },
  {
   "property": "C209",
   "status": "partial",
   "theorems": [
    "Nubhlight.Floors.C209_bound",
    "Nubhlight.Floors.C209_full_false",
    "Nubhlight.Floors.C209_gamma",
    "Nubhlight.Floors.C209_inverse_square",
    "Nubhlight.Floors.C209_jump",
    "Nubhlight.Floors.C209_partial",
    "Nubhlight.Floors.C209_polytrope",
    "Nubhlight.Floors.C209_scale",
    "Nubhlight.Floors.C209_table_density",
    "Nubhlight.Floors.C209_table_energy"
   ],
   "note": "The scale (C209_scale, C209_inverse_square), the gamma law and the polytrope (C209_partial) and the density floor of a table (C209_table_density) are as stated. False for the energy floor of a table with negative energies, which is compared by its absolute value: C209_table_energy says exactly when the bound holds, C209_jump and C209_bound what happens else, C209_full_false is a counterexample."
  },
  {
   "property": "C210",
   "status": "partial",
   "theorems": [
    "Nubhlight.Luminosity.C210_bolometric",
    "Nubhlight.Luminosity.C210_frequencies",
    "Nubhlight.Luminosity.C210_full_false",
    "Nubhlight.Luminosity.C210_luminosity",
    "Nubhlight.Luminosity.C210_one_bin",
    "Nubhlight.Luminosity.C210_packets_partial"
   ],
   "note": "False: the script spreads the bins over both ends of the range, so its bin width is too large by one part in the number of bins less one, and its trapezoids leave out half of both end bins (C210_luminosity, exact for every array; C210_full_false; nothing at all with one bin, C210_one_bin). C210_packets_partial is the exact relation to the packets, and shows that integrating the file of extract_lnu.py is right when the end bins are empty. The frequencies are in their bins (C210_frequencies)."
  },
  {
   "property": "C211",
   "status": "partial",
   "theorems": [
    "Nubhlight.Outflow.C211_Ye",
    "Nubhlight.Outflow.C211_angles",
    "Nubhlight.Outflow.C211_empty",
    "Nubhlight.Outflow.C211_excess",
    "Nubhlight.Outflow.C211_full_false",
    "Nubhlight.Outflow.C211_groups",
    "Nubhlight.Outflow.C211_masses",
    "Nubhlight.Outflow.C211_none_missed",
    "Nubhlight.Outflow.C211_partial"
   ],
   "note": "Groups, masses and electron fractions are as stated (C211_groups, C211_masses, C211_Ye, C211_angles). False for the gas counted: the field energy is added twice (C211_excess), so bound magnetised gas is counted (C211_full_false); no gas is missed (C211_none_missed), and without fields it is exact (C211_partial). A group without tracers has no numbers (C211_empty)."
  },
  {
   "property": "C212",
   "status": "partial",
   "theorems": [
    "Nubhlight.TuneStart.C212_black_hole",
    "Nubhlight.TuneStart.C212_default",
    "Nubhlight.TuneStart.C212_electrons",
    "Nubhlight.TuneStart.C212_full_false",
    "Nubhlight.TuneStart.C212_never",
    "Nubhlight.TuneStart.C212_partial"
   ],
   "note": "True for emission, and outside the black-hole metric for scattering (C212_partial). False: in the black-hole metric the scattering strength of the file is overwritten (C212_black_hole, C212_full_false), and cold runs with electrons begin at time 500 whatever the file says (C212_electrons). Times that are not positive stand for twice the interval (C212_default), outside the black-hole metric for never (C212_never)."
  },
  {
   "property": "C213",
   "status": "partial",
   "theorems": [
    "Nubhlight.TuneStart.C213_aims",
    "Nubhlight.TuneStart.C213_emission",
    "Nubhlight.TuneStart.C213_full_false",
    "Nubhlight.TuneStart.C213_postponed",
    "Nubhlight.TuneStart.C213_scattering_partial",
    "Nubhlight.TuneStart.C213_schedule",
    "Nubhlight.TuneStart.C213_setup"
   ],
   "note": "True for emission (C213_emission) and outside the black-hole metric for scattering (C213_scattering_partial). False in the black-hole metric: each early change postpones the schedule by an interval (C213_schedule, C213_postponed, C213_full_false)."
  },
  {
   "property": "C214",
   "status": "proved",
   "theorems": [
    "Nubhlight.LightStep.C214_crossing",
    "Nubhlight.LightStep.C214_flat",
    "Nubhlight.LightStep.C214_reached",
    "Nubhlight.LightStep.C214_run",
    "Nubhlight.LightStep.C214_shortest",
    "Nubhlight.LightStep.C214_speed",
    "Nubhlight.LightStep.C214_step",
    "Nubhlight.LightStep.C214_waves"
   ],
   "note": "Speed of light in each direction and that it is reached (C214_speed, C214_reached), waves (C214_waves), crossing times (C214_crossing, C214_shortest), steps of a run (C214_step, C214_run), positions in flat space (C214_flat)."
  },
  {
   "property": "C215",
   "status": "proved",
   "theorems": [
    "Nubhlight.PacketRecord.C215_extent",
    "Nubhlight.PacketRecord.C215_file_type",
    "Nubhlight.PacketRecord.C215_link",
    "Nubhlight.PacketRecord.C215_members_apart",
    "Nubhlight.PacketRecord.C215_memory_type",
    "Nubhlight.PacketRecord.C215_message",
    "Nubhlight.PacketRecord.C215_restart",
    "Nubhlight.PacketRecord.C215_tracked"
   ],
   "note": "Layout of the struct (C215_members_apart), HDF5 types (C215_memory_type, C215_file_type), restart files (C215_restart, C215_link), tracked packets (C215_tracked), messages (C215_extent, C215_message)."
  },
  {
   "property": "C216",
   "status": "partial",
   "theorems": [
    "Nubhlight.TableLoad.C216_accepted_iff",
    "Nubhlight.TableLoad.C216_full_false",
    "Nubhlight.TableLoad.C216_gamma",
    "Nubhlight.TableLoad.C216_index",
    "Nubhlight.TableLoad.C216_index_injective",
    "Nubhlight.TableLoad.C216_loaded",
    "Nubhlight.TableLoad.C216_shift_missing",
    "Nubhlight.TableLoad.C216_unnoticed"
   ],
   "note": "Complete files are taken as they are, at the right indices (C216_loaded, C216_index, C216_index_injective). The full statement is false (C216_full_false): only the status of the last read is looked at, so a file is accepted exactly if its sizes and its dataset gamma agree (C216_accepted_iff, C216_gamma); anything else that is missing goes unnoticed (C216_unnoticed, C216_shift_missing)."
  },
  {
   "property": "C217",
   "status": "proved",
   "theorems": [
    "Nubhlight.EnergyShift.C217_default_difference",
    "Nubhlight.EnergyShift.C217_difference",
    "Nubhlight.EnergyShift.C217_lookup",
    "Nubhlight.EnergyShift.C217_negative",
    "Nubhlight.EnergyShift.C217_one_shift",
    "Nubhlight.EnergyShift.C217_positive_offset",
    "Nubhlight.EnergyShift.C217_positive_unshifted",
    "Nubhlight.EnergyShift.C217_sound_speed",
    "Nubhlight.EnergyShift.C217_sound_unshifted"
   ],
   "note": "Sound speed (C217_sound_speed, C217_sound_unshifted, C217_one_shift), lookup (C217_lookup), energies (C217_difference, C217_default_difference), signs (C217_positive_offset, C217_positive_unshifted, C217_negative)."
  },
  {
   "property": "C218",
   "status": "partial",
   "theorems": [
    "Nubhlight.OutputDirs.C218_beside",
    "Nubhlight.OutputDirs.C218_dirs",
    "Nubhlight.OutputDirs.C218_full_false",
    "Nubhlight.OutputDirs.C218_full_false_short",
    "Nubhlight.OutputDirs.C218_inside",
    "Nubhlight.OutputDirs.C218_limit",
    "Nubhlight.OutputDirs.C218_overrun",
    "Nubhlight.OutputDirs.C218_words"
   ],
   "note": "For names of at most 670 characters (499 with tracers) the paths and the command are as meant (C218_dirs, C218_words), and the directories are inside if the name is empty or ends in a slash (C218_inside). The full statement is false (C218_full_false, C218_full_false_short): longer names overrun the buffer of the command (C218_overrun, C218_limit), and a name without a slash at its end gives directories beside it (C218_beside)."
  },
  {
   "property": "C219",
   "status": "proved",
   "theorems": [
    "Nubhlight.Fluid.C219_accuracy",
    "Nubhlight.FluidStep.C219_drift",
    "Nubhlight.Fluid.C219_energy",
    "Nubhlight.Fluid.C219_kept",
    "Nubhlight.Fluid.C219_recovery",
    "Nubhlight.Fluid.C219_root"
   ],
   "note": "State stored (C219_kept, C219_recovery), residual of an accepted value (C219_accuracy), distance to the root (C219_root), energy (C219_energy), runs (C219_drift). Density offset SMALL left out, as in C76."
  },
  {
   "property": "C220",
   "status": "proved",
   "theorems": [
    "Nubhlight.FloatConserve.C220_drifts",
    "Nubhlight.FloatConserve.C220_history",
    "Nubhlight.FloatConserve.C220_step",
    "Nubhlight.FloatConserve.C220_zone"
   ],
   "note": "One zone (C220_zone), one step (C220_step), runs (C220_history); C220_drifts shows that in double precision a total does change. The fluxes, the sources and the conserved variables at the start of a step are taken as the numbers computed; overflow is left out."
  },
  {
   "property": "C221",
   "status": "partial",
   "theorems": [
    "Nubhlight.TracerVars.C221_dir",
    "Nubhlight.TracerVars.C221_dir_stops",
    "Nubhlight.TracerVars.C221_everything",
    "Nubhlight.TracerVars.C221_fresh",
    "Nubhlight.TracerVars.C221_full_false",
    "Nubhlight.TracerVars.C221_full_false_units",
    "Nubhlight.TracerVars.C221_kept",
    "Nubhlight.TracerVars.C221_no_units",
    "Nubhlight.TracerVars.C221_reduced",
    "Nubhlight.TracerVars.C221_reduced_after",
    "Nubhlight.TracerVars.C221_run",
    "Nubhlight.TracerVars.C221_run_dir",
    "Nubhlight.TracerVars.C221_values",
    "Nubhlight.TracerVars.C221_when"
   ],
   "note": "False as stated: optional variables found in one file are required of all files read later in the session (C221_full_false, C221_reduced_after), and files of runs without units cannot be read (C221_full_false_units, C221_no_units). Proved: no value is ever wrong (C221_values), exactly when a file can be read (C221_when), the first file (C221_fresh), directories (C221_dir, C221_dir_stops, C221_run_dir), reduced copies (C221_reduced)."
  },
  {
   "property": "C222",
   "status": "partial",
   "theorems": [
    "Nubhlight.SkyNet.C222_averages",
    "Nubhlight.SkyNet.C222_ends",
    "Nubhlight.SkyNet.C222_first_missing",
    "Nubhlight.SkyNet.C222_full_false",
    "Nubhlight.SkyNet.C222_too_many"
   ],
   "note": "False as stated: with more processes than files the script fails (C222_too_many, C222_full_false), and so it does if a process has a file without metadata first (C222_first_missing). Proved: whenever it ends the abundances are the averages (C222_averages), and it ends with not more processes than files if all can be read (C222_ends)."
  },
  {
   "property": "C223",
   "status": "partial",
   "theorems": [
    "Nubhlight.SkyNet.C223_first_failed",
    "Nubhlight.SkyNet.C223_full_false",
    "Nubhlight.SkyNet.C223_never",
    "Nubhlight.SkyNet.C223_shape",
    "Nubhlight.SkyNet.C223_transposed_partial"
   ],
   "note": "False as stated (C223_full_false): the table is transposed before rows are chosen, so rows have one number for each file (C223_shape) and are never the intended ones unless there are four files (C223_never); C223_transposed_partial gives what is written, C223_first_failed what is lost."
  },
  {
   "property": "C224",
   "status": "proved",
   "theorems": [
    "Nubhlight.TracerFiles.C224_balance",
    "Nubhlight.TracerFiles.C224_names",
    "Nubhlight.TracerFiles.C224_order",
    "Nubhlight.TracerFiles.C224_records",
    "Nubhlight.TracerFiles.C224_trace",
    "Nubhlight.TracerFiles.C224_tracer"
   ],
   "note": "Records (C224_records), tracers (C224_tracer), traces (C224_trace), order (C224_order), balance (C224_balance), names (C224_names)."
  },
  {
   "property": "C225",
   "status": "proved",
   "theorems": [
    "Nubhlight.PrismExtrap.C225_after",
    "Nubhlight.PrismExtrap.C225_between",
    "Nubhlight.PrismExtrap.C225_continuous",
    "Nubhlight.PrismExtrap.C225_ends",
    "Nubhlight.PrismExtrap.C225_join",
    "Nubhlight.PrismExtrap.C225_positive",
    "Nubhlight.PrismExtrap.C225_recorded",
    "Nubhlight.PrismExtrap.C225_times"
   ],
   "note": "Recorded values (C225_recorded), expansion (C225_after), averages (C225_between), positivity (C225_positive), continuity (C225_continuous), value at the last record (C225_join), times (C225_times)."
  },
  {
   "property": "C226",
   "status": "proved",
   "theorems": [
    "Nubhlight.PrismSmooth.C226_averages",
    "Nubhlight.PrismSmooth.C226_line",
    "Nubhlight.PrismSmooth.C226_log",
    "Nubhlight.PrismSmooth.C226_range"
   ],
   "note": "Averages, length and refusal (C226_averages), bounds and constants (C226_range), lines (C226_line), logarithms (C226_log)."
  },
  {
   "property": "C227",
   "status": "partial",
   "theorems": [
    "Nubhlight.PrismConvert.C227_full_false",
    "Nubhlight.PrismConvert.C227_full_false_heated",
    "Nubhlight.PrismConvert.C227_full_false_step",
    "Nubhlight.PrismConvert.C227_part",
    "Nubhlight.PrismConvert.C227_short",
    "Nubhlight.PrismConvert.C227_start",
    "Nubhlight.PrismConvert.C227_when"
   ],
   "note": "False as stated: traces that never are hot, or of which no record lies within the tolerance, end the script (C227_full_false, C227_full_false_step), and traces that start cold and are heated are handed on from their start (C227_full_false_heated). Proved: exactly when a record is chosen (C227_when), traces that start hot and end cold (C227_start), the part handed on (C227_part), short ones (C227_short)."
  },
  {
   "property": "C228",
   "status": "partial",
   "theorems": [
    "Nubhlight.PrismConvert.C228_columns",
    "Nubhlight.PrismConvert.C228_full_false",
    "Nubhlight.PrismConvert.C228_radius_km"
   ],
   "note": "False as stated (C228_full_false): the radius is in kilometres (C228_radius_km). Proved: the other columns (C228_columns)."
  },
  {
   "property": "C229",
   "status": "partial",
   "theorems": [
    "Nubhlight.PrismConvert.C229_full_false",
    "Nubhlight.PrismConvert.C229_full_false_time",
    "Nubhlight.PrismConvert.C229_parallel",
    "Nubhlight.PrismConvert.C229_schedule",
    "Nubhlight.PrismConvert.C229_serial",
    "Nubhlight.PrismConvert.C229_silent"
   ],
   "note": "False as stated: in parallel exceptions are not seen (C229_full_false, C229_silent), without -s the script always fails (C229_full_false_time), and with relative paths a failure makes the outcome depend on the schedule (C229_schedule). Proved: serial (C229_serial), parallel (C229_parallel)."
  },
  {
   "property": "C230",
   "status": "partial",
   "theorems": [
    "Nubhlight.FloatTable.C230_end",
    "Nubhlight.FloatTable.C230_full_false",
    "Nubhlight.FloatTable.C230_inside",
    "Nubhlight.FloatTable.C230_overrun",
    "Nubhlight.FloatTable.C230_position",
    "Nubhlight.FloatTable.C230_temperature"
   ],
   "note": "False as stated (C230_full_false): at the largest double below the end of the range the logarithm rounds to the end and the entry after the last is asked for (C230_overrun). Proved: the error of the position (C230_position), entries and weights more than 2^-38 of an interval before the end (C230_inside), the weight of the entry beyond the end (C230_end), all temperatures up to a millionth below the end (C230_temperature)."
  },
  {
   "property": "C231",
   "status": "partial",
   "theorems": [
    "Nubhlight.EstimateThetae.C231_absorption_cools",
    "Nubhlight.EstimateThetae.C231_full_false",
    "Nubhlight.EstimateThetae.C231_partial",
    "Nubhlight.EstimateThetae.C231_solved",
    "Nubhlight.EstimateThetae.C231_transparent"
   ],
   "note": "False as stated (C231_full_false): absorption and scattering have the wrong sign (C231_solved), so that absorption cools (C231_absorption_cools). Proved: exactly when the equation solved is the one stated (C231_partial), transparent zones (C231_transparent)."
  },
  {
   "property": "C232",
   "status": "partial",
   "theorems": [
    "Nubhlight.EstimateThetae.C232_endless",
    "Nubhlight.EstimateThetae.C232_ends",
    "Nubhlight.EstimateThetae.C232_estimate",
    "Nubhlight.EstimateThetae.C232_full_false",
    "Nubhlight.EstimateThetae.C232_full_false_ghost",
    "Nubhlight.EstimateThetae.C232_ghost",
    "Nubhlight.EstimateThetae.C232_positive"
   ],
   "note": "False as stated: the passes are not counted, so that the search never ends when the solver stops making progress (C232_endless, C232_full_false), and in ghost zones the temperature used is zero (C232_ghost, C232_full_false_ghost). Proved: range and accuracy (C232_estimate), positivity (C232_positive), end with a solver that converges (C232_ends)."
  },
  {
   "property": "C233",
   "status": "partial",
   "theorems": [
    "Nubhlight.Resources.C233_dump",
    "Nubhlight.Resources.C233_full_false",
    "Nubhlight.Resources.C233_full_false_memory",
    "Nubhlight.Resources.C233_grid",
    "Nubhlight.Resources.C233_history",
    "Nubhlight.Resources.C233_memory_partial",
    "Nubhlight.Resources.C233_output",
    "Nubhlight.Resources.C233_read",
    "Nubhlight.Resources.C233_restart",
    "Nubhlight.Resources.C233_tracers",
    "Nubhlight.Resources.C233_write"
   ],
   "note": "False as stated (C233_full_false): a dump loses nine or eleven identifiers, a restart file six or eight (two for every string), and a tracer file with a tabulated equation of state one array (C233_full_false_memory). Proved: nothing is given back twice or unmade, in any state of the memory, and exactly what is lost over every history (C233_history)."
  },
  {
   "property": "C234",
   "status": "partial",
   "theorems": [
    "Nubhlight.DiskProfile.C234_flipped",
    "Nubhlight.DiskProfile.C234_full_false",
    "Nubhlight.DiskProfile.C234_heights",
    "Nubhlight.DiskProfile.C234_order_partial",
    "Nubhlight.DiskProfile.C234_spread"
   ],
   "note": "False as stated: zones further than a quarter turn from the middle of the gas are put on the other side (C234_flipped, C234_full_false). Proved: existence, range of middle, spread and height on every shell (C234_heights, C234_spread), and the order within a quarter turn (C234_order_partial)."
  },
  {
   "property": "C235",
   "status": "partial",
   "theorems": [
    "Nubhlight.DiskProfile.C235_exact",
    "Nubhlight.DiskProfile.C235_exponential",
    "Nubhlight.DiskProfile.C235_full_false",
    "Nubhlight.DiskProfile.C235_radii",
    "Nubhlight.DiskProfile.C235_range_partial",
    "Nubhlight.DiskProfile.C235_short"
   ],
   "note": "False as stated: the weights are negative where neighbouring spacings differ by more than a factor of two (C235_full_false), and there is no average over fewer than two radii (C235_short). Proved: which radii are used, exactness, the range for spacings within a factor of two, and that exponential radii are such."
  },
  {
   "property": "C236",
   "status": "proved",
   "theorems": [
    "Nubhlight.DiskProfile.C236_accuracy",
    "Nubhlight.DiskProfile.C236_mass",
    "Nubhlight.DiskProfile.C236_parts",
    "Nubhlight.DiskProfile.C236_range"
   ],
   "note": "For the integral of what load_diag returns (C189 says which rows those are). The sign of the flow is not reported (C236_mass)."
  },
  {
   "property": "C237",
   "status": "partial",
   "theorems": [
    "Nubhlight.DiskProfile.C237_beyond",
    "Nubhlight.DiskProfile.C237_default",
    "Nubhlight.DiskProfile.C237_full_false",
    "Nubhlight.DiskProfile.C237_mean",
    "Nubhlight.DiskProfile.C237_range_partial"
   ],
   "note": "False as stated: a negative first index is replaced by zero (C237_full_false), and a last index before the start averages files nobody asked for (C237_beyond). Proved: the other cases, the default, and the means."
  },
  {
   "property": "C238",
   "status": "partial",
   "theorems": [
    "Nubhlight.DynTime.C238_full_false",
    "Nubhlight.DynTime.C238_processes",
    "Nubhlight.DynTime.C238_range_partial",
    "Nubhlight.DynTime.C238_sums"
   ],
   "note": "False as stated: the times are averaged with their sign and the magnitude is taken afterwards, so compression and expansion cancel (C238_full_false). Proved: each dump is used once whatever the number of processes (C238_sums, C238_processes), and the range if the density only falls or only rises (C238_range_partial)."
  },
  {
   "property": "C239",
   "status": "proved",
   "theorems": [
    "Nubhlight.TorusId.C239_code",
    "Nubhlight.TorusId.C239_isco"
   ],
   "note": "Also: for negative spins the code writes the radius of the opposite spin, which is smaller (C239_code)."
  },
  {
   "property": "C240",
   "status": "partial",
   "theorems": [
    "Nubhlight.TorusId.C240_full_false",
    "Nubhlight.TorusId.C240_mass",
    "Nubhlight.TorusId.C240_over_partial",
    "Nubhlight.TorusId.C240_volume"
   ],
   "note": "False as stated: the sine of the polar angle is missing in the volume (C240_volume), so gas away from the equator counts too much (C240_full_false). Proved: which gas counts and that units cancel (C240_mass), and that the mass is never too small and right at the equator (C240_over_partial). Simpson weights are parameters."
  },
  {
   "property": "C241",
   "status": "partial",
   "theorems": [
    "Nubhlight.TorusId.C241_full_false",
    "Nubhlight.TorusId.C241_ideal",
    "Nubhlight.TorusId.C241_table_partial"
   ],
   "note": "False as stated: for an ideal gas, the default, the last line looks up names that do not exist (C241_ideal, C241_full_false). Proved for tables."
  },
  {
   "property": "C242",
   "status": "partial",
   "theorems": [
    "Nubhlight.YeStats.C242_distance",
    "Nubhlight.YeStats.C242_full_false",
    "Nubhlight.YeStats.C242_range_partial"
   ],
   "note": "False as stated: integrals over zones use Simpson weights, which alternate (C242_full_false). Proved: the range of the mean and spread (C242_range_partial) and the inequality of the distances (C242_distance) for every grid with either parity of zones."
  },
  {
   "property": "C243",
   "status": "partial",
   "theorems": [
    "Nubhlight.YeStats.C243_found_partial",
    "Nubhlight.YeStats.C243_full_false",
    "Nubhlight.YeStats.C243_nan"
   ],
   "note": "False as stated: where emissivities are not numbers the result is one half, in the table or not (C243_nan, C243_full_false). Proved for continuous objectives and every search that keeps the contract of brentq (C243_found_partial); one exists (ideal_ok)."
  },
  {
   "property": "C244",
   "status": "partial",
   "theorems": [
    "Nubhlight.Timers.C244_at_most_all",
    "Nubhlight.Timers.C244_fresh",
    "Nubhlight.Timers.C244_full_false",
    "Nubhlight.Timers.C244_nested",
    "Nubhlight.Timers.C244_nested_over",
    "Nubhlight.Timers.C244_parts",
    "Nubhlight.Timers.C244_restart_partial"
   ],
   "note": "False as stated: the reset after the first step of a fresh run drops its time but not the step (C244_fresh, C244_full_false), and a timer nested in itself counts wrongly (C244_nested, C244_nested_over). Proved: restarted runs (C244_restart_partial), parts that do not nest (C244_parts) and that they take at most the whole (C244_at_most_all)."
  },
  {
   "property": "C245",
   "status": "partial",
   "theorems": [
    "Nubhlight.Adiabat.C245_accepted",
    "Nubhlight.Adiabat.C245_accepted_only",
    "Nubhlight.Adiabat.C245_bounds",
    "Nubhlight.Adiabat.C245_constant",
    "Nubhlight.Adiabat.C245_dips",
    "Nubhlight.Adiabat.C245_entropy",
    "Nubhlight.Adiabat.C245_fraction",
    "Nubhlight.Adiabat.C245_full_false",
    "Nubhlight.Adiabat.C245_full_false_densities",
    "Nubhlight.Adiabat.C245_kept",
    "Nubhlight.Adiabat.C245_last",
    "Nubhlight.Adiabat.C245_project_partial",
    "Nubhlight.Adiabat.C245_square",
    "Nubhlight.Adiabat.C245_square_case",
    "Nubhlight.Adiabat.C245_states",
    "Nubhlight.Adiabat.C245_temperature"
   ],
   "note": "False as stated: with as many densities as temperatures the densities are given as temperatures (C245_square, C245_square_case, C245_full_false_densities), and a line that falls between inner points is accepted (C245_dips, C245_full_false). Proved: the entropy along the line (C245_entropy, C245_constant), which densities are kept (C245_kept, C245_bounds, C245_last: never the densest), other arrays (C245_project_partial, C245_states, C245_temperature), and what the check accepts (C245_accepted, C245_accepted_only)."
  },
  {
   "property": "C246",
   "status": "partial",
   "theorems": [
    "Nubhlight.DirAverage.C246_always_redone",
    "Nubhlight.DirAverage.C246_clash",
    "Nubhlight.DirAverage.C246_dated",
    "Nubhlight.DirAverage.C246_distinct_partial",
    "Nubhlight.DirAverage.C246_first_six",
    "Nubhlight.DirAverage.C246_fresh",
    "Nubhlight.DirAverage.C246_full_false",
    "Nubhlight.DirAverage.C246_named_2d",
    "Nubhlight.DirAverage.C246_nothing_left",
    "Nubhlight.DirAverage.C246_number",
    "Nubhlight.DirAverage.C246_own_partial",
    "Nubhlight.DirAverage.C246_restart",
    "Nubhlight.DirAverage.C246_restart_partial"
   ],
   "note": "False as stated: the number of an average is the largest number in the path, the 5 of the ending .h5 included, so the first six dumps share one file and so do all dumps below a number in the name of the directory (C246_clash, C246_first_six, C246_dated, C246_full_false); these are redone by every restart (C246_always_redone), as are all in a directory named with 2d (C246_named_2d); a restart with nothing left fails (C246_nothing_left). Proved: exactly which dumps get their own file (C246_own_partial, C246_distinct_partial) and what a restart then leaves out (C246_restart, C246_restart_partial)."
  },
  {
   "property": "C247",
   "status": "partial",
   "theorems": [
    "Nubhlight.EhtProfiles.C247_below",
    "Nubhlight.EhtProfiles.C247_full_false",
    "Nubhlight.EhtProfiles.C247_profile_partial",
    "Nubhlight.EhtProfiles.C247_ratio",
    "Nubhlight.EhtProfiles.C247_third",
    "Nubhlight.EhtProfiles.C247_time_late",
    "Nubhlight.EhtProfiles.C247_time_partial",
    "Nubhlight.EhtProfiles.C247_wedge",
    "Nubhlight.EhtProfiles.C247_weighted",
    "Nubhlight.EhtProfiles.C247_weights"
   ],
   "note": "False as stated: the sum over the wedge is divided by the volume of the whole shell (C247_below, C247_third, C247_full_false), and if all dumps are before the time asked for the last one alone is given (C247_time_late). Proved: by which factor profiles are too small (C247_profile_partial), that it cancels in ratios (C247_ratio), which zones the wedge has (C247_wedge), weighted means (C247_weighted, C247_weights), the time average otherwise (C247_time_partial)."
  },
  {
   "property": "C248",
   "status": "partial",
   "theorems": [
    "Nubhlight.SlicePlot.C248_full_false",
    "Nubhlight.SlicePlot.C248_once",
    "Nubhlight.SlicePlot.C248_opposite",
    "Nubhlight.SlicePlot.C248_order",
    "Nubhlight.SlicePlot.C248_place_partial",
    "Nubhlight.SlicePlot.C248_poles",
    "Nubhlight.SlicePlot.C248_values"
   ],
   "note": "False as stated: zones next to the poles are drawn on the axis (C248_poles, C248_full_false), and zones on the left are opposite only for an even number in azimuth (C248_opposite). Proved: each zone once (C248_once), values and heights (C248_values), distances elsewhere (C248_place_partial), order (C248_order)."
  },
  {
   "property": "C249",
   "status": "partial",
   "theorems": [
    "Nubhlight.TableFetch.C249_absent_partial",
    "Nubhlight.TableFetch.C249_again",
    "Nubhlight.TableFetch.C249_bhb",
    "Nubhlight.TableFetch.C249_full_false",
    "Nubhlight.TableFetch.C249_kept",
    "Nubhlight.TableFetch.C249_missed",
    "Nubhlight.TableFetch.C249_missed_case",
    "Nubhlight.TableFetch.C249_never_again_partial",
    "Nubhlight.TableFetch.C249_present_partial",
    "Nubhlight.TableFetch.C249_recognised"
   ],
   "note": "False as stated: endings are removed with rstrip, which removes characters, so two tables of the list whose names end in 2 are fetched each time (C249_again, C249_bhb, C249_full_false) and a table is not fetched if another is taken for it (C249_missed, C249_missed_case). Proved: what is recognised (C249_recognised), that nothing unpacked is lost in any history (C249_kept), and once and never again for names that end otherwise (C249_present_partial, C249_absent_partial, C249_never_again_partial)."
  },
  {
   "property": "C250",
   "status": "partial",
   "theorems": [
    "Nubhlight.Host.C250_command_partial",
    "Nubhlight.Host.C250_first",
    "Nubhlight.Host.C250_full_false",
    "Nubhlight.Host.C250_full_false_options",
    "Nubhlight.Host.C250_nodes",
    "Nubhlight.Host.C250_not_overridden",
    "Nubhlight.Host.C250_one_unnamed",
    "Nubhlight.Host.C250_options_partial",
    "Nubhlight.Host.C250_refused",
    "Nubhlight.Host.C250_shadowed",
    "Nubhlight.Host.C250_unknown",
    "Nubhlight.Host.C250_words"
   ],
   "note": "False as stated: only eight listed options are read from the environment (C250_not_overridden, C250_full_false_options), and for one process a machine whose launcher is mpirun gives a command that names no number (C250_one_unnamed, C250_full_false). Also proved: one machine file can never be chosen (C250_shadowed). Proved: the first that recognises the host (C250_first, C250_unknown), the listed options (C250_options_partial), the command (C250_command_partial) and what is refused (C250_refused)."
  },
  {
   "property": "C251",
   "status": "partial",
   "theorems": [
    "Nubhlight.Scaling.C251_built",
    "Nubhlight.Scaling.C251_full_false",
    "Nubhlight.Scaling.C251_ghosts_grow",
    "Nubhlight.Scaling.C251_name_error",
    "Nubhlight.Scaling.C251_refused_partial",
    "Nubhlight.Scaling.C251_strong",
    "Nubhlight.Scaling.C251_weak"
   ],
   "note": "The last clause is false: only oddness is checked, so that even scales such as 6, and those that are not positive, end in NameError (C251_name_error, exact; C251_full_false). Proved for all scales: which are built (C251_built), the work of both scripts (C251_weak, C251_strong) and the scales that are refused properly (C251_refused_partial). Also proved: the zones with those of the neighbours grow in weak scaling (C251_ghosts_grow)."
  },
  {
   "property": "C252",
   "status": "partial",
   "theorems": [
    "Nubhlight.MovieCache.C252_broken_stays",
    "Nubhlight.MovieCache.C252_cache_lost",
    "Nubhlight.MovieCache.C252_cut_off",
    "Nubhlight.MovieCache.C252_fresh",
    "Nubhlight.MovieCache.C252_full_false",
    "Nubhlight.MovieCache.C252_full_false_settings",
    "Nubhlight.MovieCache.C252_movie_partial",
    "Nubhlight.MovieCache.C252_not_again",
    "Nubhlight.MovieCache.C252_settings_stay"
   ],
   "note": "False as stated: a frame that was being written when a run ended counts as done in all later runs (C252_broken_stays, C252_full_false), and so do frames of other settings (C252_settings_stay, C252_full_false_settings). Proved for all histories, orders and ends otherwise: the movie (C252_movie_partial), that frames are not drawn again (C252_not_again, C252_cut_off), that movies without cache are right (C252_fresh), and that the cache itself is removed after a movie (C252_cache_lost)."
  },
  {
   "property": "C253",
   "status": "partial",
   "theorems": [
    "Nubhlight.WindBins.C253_accumulated",
    "Nubhlight.WindBins.C253_at_least",
    "Nubhlight.WindBins.C253_covered",
    "Nubhlight.WindBins.C253_empty",
    "Nubhlight.WindBins.C253_full_false",
    "Nubhlight.WindBins.C253_last_missing",
    "Nubhlight.WindBins.C253_latest",
    "Nubhlight.WindBins.C253_mean",
    "Nubhlight.WindBins.C253_one_bin",
    "Nubhlight.WindBins.C253_rate",
    "Nubhlight.WindBins.C253_sum",
    "Nubhlight.WindBins.C253_total_partial",
    "Nubhlight.WindBins.C253_two_bins",
    "Nubhlight.WindBins.C253_up_to_end"
   ],
   "note": "False as stated: both ends belong to a bin, so a tracer on an edge between two is counted twice (C253_two_bins, C253_full_false), and the accumulated mass ends before the last bin (C253_last_missing). Proved: none is left out (C253_covered, C253_at_least), exactly one bin off the edges and the total then (C253_one_bin, C253_total_partial), the sum in all cases (C253_sum), the mass up to a time (C253_up_to_end, C253_latest), accumulated masses, rates and means (C253_accumulated, C253_rate, C253_mean, C253_empty)."
  },
  {
   "property": "C254",
   "status": "partial",
   "theorems": [
    "Nubhlight.WaveTests.C254_blind",
    "Nubhlight.WaveTests.C254_full_false",
    "Nubhlight.WaveTests.C254_last_zone",
    "Nubhlight.WaveTests.C254_no_power",
    "Nubhlight.WaveTests.C254_one_dimension_mean_partial",
    "Nubhlight.WaveTests.C254_one_dimension_partial",
    "Nubhlight.WaveTests.C254_power",
    "Nubhlight.WaveTests.C254_same_wave",
    "Nubhlight.WaveTests.C254_turned"
   ],
   "note": "False in two and three dimensions: the error is set anew in each zone instead of being summed, so it is that of the last zone alone (C254_last_zone, C254_blind, C254_full_false), and has no logarithm if that zone is exact (C254_no_power). Proved: the same wave in all directions (C254_same_wave, C254_turned), the mean in one dimension (C254_one_dimension_mean_partial, C254_one_dimension_partial) and the power found (C254_power)."
  },
  {
   "property": "C255",
   "status": "partial",
   "theorems": [
    "Nubhlight.SolidAngle.C255_both_sides",
    "Nubhlight.SolidAngle.C255_full_false",
    "Nubhlight.SolidAngle.C255_half",
    "Nubhlight.SolidAngle.C255_selected",
    "Nubhlight.SolidAngle.C255_sum_partial",
    "Nubhlight.SolidAngle.C255_twice"
   ],
   "note": "False by a factor of two: tracers are taken from both sides of the plane (C255_both_sides), the solid angle is that of one (C255_half), so the histograms show twice the mass (C255_twice, C255_full_false). Proved: which tracers (C255_selected) and the sum with the solid angle of one side (C255_sum_partial)."
  }
 ]
}