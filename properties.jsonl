{"id": "C01", "title": "Constrained transport keeps the magnetic divergence fixed", "statement": "Advancing the fluid by one sub-step leaves the corner-centred divergence of the magnetic field, exactly as the code itself measures and dumps it, unchanged at every corner whose eight cells are updated, whatever fluxes the Riemann solver produced; and the corner averaging reproduces the fluxes of a uniform electric field exactly.", "quantifier": "all grid sizes, spacings, time steps, magnetic fields and face fluxes; any number of successive sub-steps", "why_tests_cant": "The cancellation has to hold for every flux value in every cell and for arbitrarily many steps; a run only shows that divB stays small for one flow.", "anchors": ["core/step.c: flux_ct, advance", "core/diag.c: flux_ct_divb"]}
{"id": "C02", "title": "Finite-volume update is conservative", "statement": "The sum over the grid of any conserved variable after an update equals the sum before, plus the net flux through the outer boundary faces times dt/dx, plus dt times the summed source terms; on a periodic grid without sources the total is unchanged.", "quantifier": "all grid sizes in three dimensions, all face fluxes, sources, spacings and time steps, any number of updates", "why_tests_cant": "Telescoping must hold for every grid size and flux array; a test checks one grid to round-off.", "anchors": ["core/step.c: advance"]}
{"id": "C03", "title": "Numerical flux is consistent and single-valued", "statement": "When the left and right face states coincide the numerical flux is exactly the physical flux of that state; exchanging the roles of the states changes only the sign of the dissipative part; the wave speed used is at least each side's fastest left- and right-going speed and never negative; the time-step limit reported is at most the Courant number times dx over the largest wave speed anywhere.", "quantifier": "all left/right states, fluxes and characteristic speeds", "why_tests_cant": "The consistency identity quantifies over all states, and the minimum over all zones.", "anchors": ["core/step.c: lr_to_flux, fluxcalc, ndt_min"]}
{"id": "C04", "title": "Slope limiters create no new extrema", "statement": "For every limiter the code offers (monotonised central, van Leer, minmod) the two reconstructed face values of a zone lie between the zone average and the neighbouring averages, the slope vanishes at local extrema, constant data are reproduced exactly, and mirroring the stencil mirrors the answer.", "quantifier": "all triples of zone averages and all three limiters", "why_tests_cant": "Range over all real triples with case splits on signs and magnitudes; sampling can miss a branch boundary.", "anchors": ["core/reconstruction.c: slope_lim, linear_mc, reconstruct_lr_lin"]}
{"id": "C05", "title": "WENO reconstruction is a convex, symmetric, linear-exact average", "statement": "The WENO face values are convex combinations of the three candidate parabola values (nonnegative weights summing to one, no division by zero), reproduce quadratic candidates exactly when the candidates agree (in particular constant and linear data), are equivariant under adding a constant, and mirror when the stencil is mirrored.", "quantifier": "all five-point stencils of zone averages", "why_tests_cant": "Universally quantified algebra over five reals including degenerate stencils where smoothness indicators vanish.", "anchors": ["core/reconstruction.c: weno"]}
{"id": "C06", "title": "Monotonicity-preserving reconstruction stays in its bounds", "statement": "The MP5 face value always lies in the monotonicity interval built from the stencil, minmod and median helpers return what their names say, and on monotone data the MP5 face value lies between the two zone averages adjacent to the face.", "quantifier": "all five-point stencils", "why_tests_cant": "Requires the median/minmod case analysis for every real stencil.", "anchors": ["core/reconstruction.c: mp5, mp5_subcalc, Median, mp5_minmod"]}
{"id": "C07", "title": "Broken or unknown reconstruction choices stop the run", "statement": "Selecting the reconstruction scheme marked broken (PPM), or an unknown one, terminates the run instead of producing face values, while every other scheme returns values for every input; on uniform data the unused PPM kernel would return the data and the unused CS08 kernel would divide zero by zero.", "quantifier": "all schemes, rows of zone averages and zones", "why_tests_cant": "A configuration matrix; the run-time exit is only seen when that configuration is built.", "anchors": ["core/reconstruction.c: reconstruct, reconstruct_lr_ppm, para"]}
{"id": "C08", "title": "The time step grows slowly and the run lands exactly on the final time", "statement": "After every step the next time step is at most SAFE=1.3 times the previous one (unless the emergency minimum is used), simulated time never decreases and never exceeds the final time tf, a step that would cross tf is shortened so the run ends at exactly tf, and a run whose proposed steps are bounded below terminates.", "quantifier": "all histories of proposed time steps over all ranks", "why_tests_cant": "Quantifies over every history of steps; a run shows one.", "anchors": ["core/step.c: step", "core/main.c: main"]}
{"id": "C09", "title": "Directional time-step limits combine safely", "statement": "The combined Courant time step (harmonic combination of the three directional limits) is positive and no larger than any of the directional limits, and the radiation time step never exceeds the light-crossing or cooling limits.", "quantifier": "all positive directional limits", "why_tests_cant": "Inequality over all positive reals.", "anchors": ["core/step.c: fluxcalc, step", "core/coord.c: set_grid"]}
{"id": "C10", "title": "Four-velocity is normalised", "statement": "For every metric with inverse, the four-velocity computed from the primitive velocities satisfies u.u = -1 and has a positive time component, and lowering/raising indices are inverse to each other.", "quantifier": "all primitive three-velocities and all metrics given with their inverse and lapse, with nonnegative spatial velocity norm", "why_tests_cant": "Universally quantified tensor identity over metrics and velocities.", "anchors": ["core/phys.c: ucon_calc, mhd_gamma_calc", "core/metric.c: lower, raise", "core/coord.c: set_metric"]}
{"id": "C11", "title": "Primitive velocities survive the round trip through the four-velocity", "statement": "Converting primitive velocities to a four-velocity and back returns the original primitive velocities; extracting the three-velocity of a four-velocity and completing it with the computed u^t restores the four-velocity.", "quantifier": "all primitive velocities and metrics", "why_tests_cant": "Round trip over all inputs.", "anchors": ["core/phys.c: ucon_calc", "core/fixup.c: ucon_to_utcon, ut_calc_3vel"]}
{"id": "C12", "title": "Magnetic four-vector is orthogonal to the flow and carries the right field strength", "statement": "The magnetic four-vector satisfies b.u = 0, b.b = (B.B + (u.B)^2)/(u^t)^2, and the code's induction flux of a component in its own direction vanishes while the t-component of the induction 'flux' returns the primitive field.", "quantifier": "all normalised four-velocities, metrics and fields", "why_tests_cant": "Tensor identity for all states.", "anchors": ["core/phys.c: bcon_calc, primtoflux, mhd_calc, get_state"]}
{"id": "C13", "title": "MHD stress-energy tensor has the ideal-MHD structure", "statement": "The tensor built component-wise by the code is symmetric once both indices are raised, has the fluid energy density rho+u+b^2/2 as its rest-frame eigenvalue with eigenvector u, and has trace -rho-u+3p.", "quantifier": "all states, pressures and metrics", "why_tests_cant": "Identity for all states and metrics.", "anchors": ["core/phys.c: mhd_calc"]}
{"id": "C14", "title": "Recovering primitives: the exact state solves the inversion equation", "statement": "For conserved variables produced from a physical ideal-gas state, the exact enthalpy-like unknown is a zero of the inversion residual and the recovered Lorentz factor, density and internal energy at that zero are those of the state.", "quantifier": "all physical states with a gamma-law equation of state", "why_tests_cant": "Requires algebra over all states; a test compares a few states to tolerance.", "anchors": ["core/utop.c: err_eqn, gamma_func, Wp_func, Utoprim"]}
{"id": "C15", "title": "Recovery reports failure rather than storing a bad fluid state", "statement": "The recovery routine performs a bounded number of iterations, rejects non-positive density, writes fluid primitives only when the resulting density and internal energy are nonnegative, and on every error code 1..5 or -100 leaves density, energy and velocities of the primitive array untouched; magnetic primitives are always set from the conserved field.", "quantifier": "all conserved inputs, all behaviours of the root iteration and EOS", "why_tests_cant": "Ranges over every control path of the iteration and every EOS answer.", "anchors": ["core/utop.c: Utoprim"]}
{"id": "C16", "title": "Floors and ceilings hold after the zone fix-up", "statement": "After the floor routine a zone has density and internal energy at least the floors used and Lorentz factor (as the code computes it) at most GAMMAMAX, the magnetic field is untouched, and a zone already satisfying the limits is left unchanged.", "quantifier": "all zones, field strengths, floors and velocities", "why_tests_cant": "Ranges over all primitive states.", "anchors": ["core/fixup.c: fixup1zone, get_scale", "core/eos.c: EOS_set_floors"]}
{"id": "C17", "title": "Interpolation over failed zones is local averaging", "statement": "Zones whose recovery failed are replaced, variable by variable below the magnetic field, with a convex combination of good neighbours, so the repaired value lies between the smallest and largest good neighbour value; good zones and magnetic fields are unchanged; a repaired zone can serve later zones; the loop always terminates.", "quantifier": "all failure patterns, primitive values and grid sizes", "why_tests_cant": "Every pattern of failed zones and scan order matters.", "anchors": ["core/fixup.c: fixup_utoprim"]}
{"id": "C18", "title": "Ghost zones are filled from the right active zones", "statement": "After the boundary update every ghost zone holds the value prescribed by its boundary condition: nearest active zone for outflow, image zone under translation for periodic, mirror zone with reversed polar velocity and field at the axis; active zones are not changed.", "quantifier": "all grid sizes, all boundary types and all primitive values", "why_tests_cant": "Must hold for every index and grid size.", "anchors": ["core/bounds.c: bound_prim"]}
{"id": "C19", "title": "No inflow through outflow boundaries", "statement": "After the inflow check a boundary zone's radial four-velocity is not directed into the domain, a zone not flowing inward is unchanged, and the corrected velocity is physical (its Lorentz factor is exactly that of the remaining transverse motion); mass flux through the inner and outer radial boundary is never inward and no flux crosses the polar axis.", "quantifier": "all boundary velocities, metrics and flux arrays", "why_tests_cant": "Inequality for all states.", "anchors": ["core/bounds.c: inflow_check, fix_flux"]}
{"id": "C20", "title": "Zone bookkeeping for polar boundaries is an involution", "statement": "The mirror index maps used at both poles send ghosts to distinct active zones and applying the polar mirror twice gives back the original data, so reflection-symmetric data stay reflection symmetric.", "quantifier": "all grid sizes and data", "why_tests_cant": "All indices and sizes.", "anchors": ["core/bounds.c: bound_prim"]}
{"id": "C21", "title": "Bisection root finder brackets, terminates and is accurate", "statement": "When bisection reports success the returned point lies in the search interval, is within half the x-tolerance of a sign change of f - y (hence within tolerance of a true root for continuous f), and it always stops; it reports failure whenever the interval end values have the same strict sign.", "quantifier": "all functions, targets, intervals, tolerances and starting guesses", "why_tests_cant": "All functions and intervals.", "anchors": ["core/root_finding.c: root_bisect"]}
{"id": "C22", "title": "The general root finder returns a root inside the interval", "statement": "When the root finder reports success, the returned point lies in the requested interval and is either an accepted end point, a converged secant point or a bisection root.", "quantifier": "all functions, targets, intervals and guesses", "why_tests_cant": "Needs every path through secant and bisection.", "anchors": ["core/root_finding.c: find_root, root_secant"]}
{"id": "C23", "title": "Array search helpers", "statement": "Minimum/maximum helpers return an element of the array that bounds all others, the index helper returns the bracketing position (or not-found) in a sorted array, and the median helper returns an order statistic with at least half of the entries on each side.", "quantifier": "all arrays of all lengths", "why_tests_cant": "All arrays.", "anchors": ["core/util.c: find_min, find_max, find_index, find_median"]}
{"id": "C24", "title": "One-dimensional table lookup stays inside the table", "statement": "Linear interpolation reads only existing entries, returns tabulated values at nodes, is exact for linear tables and always lies between the two neighbouring entries, for every query in the closed table range.", "quantifier": "all tables with at least two nodes and all queries in range, including both end points", "why_tests_cant": "All tables and the end points.", "anchors": ["core/util.c: interp_1d", "core/opac_emis_hdf.c: init_opac_emis_hdf"]}
{"id": "C25", "title": "Matrix inversion is correct", "statement": "For every 4x4 matrix the adjugate times the matrix is the determinant times the identity, so whenever the determinant is nonzero the inversion routine returns a two-sided inverse and reports the true determinant; the lapse and metric determinant derived from it satisfy det(g).det(g^-1)=1.", "quantifier": "all real 4x4 matrices", "why_tests_cant": "All matrices.", "anchors": ["core/metric.c: adjoint, determinant, invert, MINOR, gcon_func"]}
{"id": "C26", "title": "Analytic metrics are symmetric and mutually inverse", "statement": "The Boyer-Lindquist covariant and contravariant metrics are inverse to each other off the horizon and axis, the Kerr-Schild-based metric is symmetric at every point, and the coordinate Jacobians forward and backward are inverse to each other.", "quantifier": "all radii, angles, spins away from coordinate singularities", "why_tests_cant": "Identity over continuous parameters.", "anchors": ["core/metric.c: bl_gcov_func, bl_gcon_func", "core/coord.c: set_gcov, set_dxdX, jac_harm_to_bl"]}
{"id": "C27", "title": "Connection coefficients are symmetric and metric compatible", "statement": "The finite-difference connection is symmetric in its lower indices and its lowered form satisfies metric compatibility with the same finite-difference metric derivatives, for any metric.", "quantifier": "all metrics and points", "why_tests_cant": "All metrics.", "anchors": ["core/metric.c: conn_func"]}
{"id": "C28", "title": "Antisymmetric symbol and Faraday tensor", "statement": "The four-index symbol returns 0 on repeated indices and the sign of the permutation otherwise; the field tensor built from it is antisymmetric and is annihilated by the four-velocity (no electric field in the fluid frame).", "quantifier": "all index tuples, four-velocities and fields", "why_tests_cant": "All permutations and fields.", "anchors": ["core/current.c: antisym, pp, Fcon_calc"]}
{"id": "C29", "title": "Local frames are orthonormal and reversible", "statement": "When construction succeeds without degenerate vectors the tetrad is orthonormal with u as time leg, conversions coordinate->frame->coordinate are the identity, and renormalising a photon vector makes it exactly null while keeping its spatial part.", "quantifier": "all metrics, four-velocities and trial vectors", "why_tests_cant": "All metrics and vectors.", "anchors": ["core/tetrads.c: make_tetrad, normalize, project_out, coord_to_tetrad, tetrad_to_coord, normalize_null, normalize_null_cov"]}
{"id": "C30", "title": "Grid coordinates and zone indices agree", "statement": "The zone index computed from the centre coordinates of a zone is that zone on the rank that owns it, face coordinates of neighbouring zones coincide, and every point inside a rank's box maps to an active zone of that rank.", "quantifier": "all zones, grid sizes, decompositions and spacings", "why_tests_cant": "All zones and decompositions.", "anchors": ["core/coord.c: coord", "core/rad_utils.c: Xtoijk", "core/mpi.c: init_mpi", "core/coord.c: set_points"]}
{"id": "C31", "title": "Ideal-gas equation of state is self-consistent and causal", "statement": "Pressure, enthalpy, internal energy, temperature and adiabat relations are mutually inverse where they should be, the sound speed satisfies 0 <= cs^2 < 1, and floors produce positive density and energy.", "quantifier": "all densities and energies, all adiabatic indices in (1,2]", "why_tests_cant": "All reals.", "anchors": ["core/eos_gamma.c", "core/eos.c"]}
{"id": "C32", "title": "Polytropic equation of state answers every query", "statement": "The polytropic equation of state gives a well-defined answer for every query the code offers for the other equations of state, and its enthalpy-based and energy-based pressure agree.", "quantifier": "all queries and inputs", "why_tests_cant": "Configuration-dependent dispatch; compile-time option rarely built.", "anchors": ["core/eos.c: EOS_adiabatic_constant, EOS_u_press", "core/eos_poly.c"]}
{"id": "C33", "title": "Tabulated equation of state never reads outside its table", "statement": "For every density, temperature and electron fraction, including values at or beyond the table edges, the eight entries read exist, and interpolated values lie between the smallest and largest of those entries when the query is inside the table and are exact at the nodes.", "quantifier": "all tables and queries", "why_tests_cant": "All queries including edges.", "anchors": ["core/eos_stellar_collapse.c: EOS_SC_interp, catch_rho, catch_lrho, catch_ye, catch_lT"]}
{"id": "C34", "title": "Two-dimensional bounds tables are interpolated between the right neighbours", "statement": "The interpolated per-(density, electron fraction) bounds use the four surrounding table nodes, are exact at nodes and lie between those four values.", "quantifier": "all tables and queries", "why_tests_cant": "A macro-precedence error gives plausible values; only an all-input statement exposes it.", "anchors": ["core/eos_stellar_collapse.h: MMA_ELEM", "core/eos_stellar_collapse.c: interp_2d, catch_var_2d, fill_max_min_2d"]}
{"id": "C35", "title": "Energy unit conversions round-trip and clamps are idempotent", "statement": "Specific-energy/energy-density and log conversions are inverse to each other on physical inputs, and every clamp used for table queries is idempotent, monotone and lands in range.", "quantifier": "all physical inputs", "why_tests_cant": "All reals.", "anchors": ["core/eos_stellar_collapse.c: u2e, e2u, le2e, e2le, catch_*"]}
{"id": "C36", "title": "Electron heating and temperature limits", "statement": "The electron heating fraction lies in (0,1], electron heating is linear in dissipated entropy with the right sign, and after the electron fix-up the electron entropy lies between the limits implied by the minimum and maximum proton-to-electron temperature ratios; applying it twice changes nothing.", "quantifier": "all states and entropies", "why_tests_cant": "All reals.", "anchors": ["core/electrons.c: get_fel, heat_electrons_zone, fixup_electrons_1zone"]}
{"id": "C37", "title": "List surgery never loses or duplicates a superphoton", "statement": "Moving a particle between lists and removing a particle from a list keep the collection of all particles (as a multiset over all lists) exactly, apart from the removed one, for any sequence of such operations.", "quantifier": "all lists and all operation sequences", "why_tests_cant": "All histories of pointer operations.", "anchors": ["core/rad_utils.c: swap_ph, list_remove", "core/bounds.c: bound_superphotons"]}
{"id": "C38", "title": "Boundary pass sorts every superphoton to exactly one destination and counts it", "statement": "Each particle is, exactly once, either kept, sent to another rank, recorded as escaped, or discarded as lost; the escaped and lost counters increase by exactly those numbers; periodic wrap places coordinates back in the domain and does not change direction or weight.", "quantifier": "all particle lists, boundary types and positions", "why_tests_cant": "All histories and positions.", "anchors": ["core/bounds.c: bound_superphotons, bound_rad_transport, bound_rad_isactive, rad_mpi_transport"]}
{"id": "C39", "title": "Exchange between ranks delivers every particle once", "statement": "Every particle a rank hands to the exchange is received by exactly one neighbour in the direction it left, received particles are spread over threads so that each is in exactly one list and list lengths differ by at most the chunk size, and the counts sent and received agree.", "quantifier": "all rank grids, particle sets and thread counts", "why_tests_cant": "Every distribution over ranks and threads.", "anchors": ["core/mpi.c: sync_mpi_photons"]}
{"id": "C40", "title": "Repeated boundary exchange brings particles home", "statement": "A particle displaced by any number of ranks reaches the rank that owns its position after at most as many exchange rounds as the largest rank distance, and the restart procedure performs enough rounds.", "quantifier": "all positions, decompositions and periodicities", "why_tests_cant": "All positions and decompositions.", "anchors": ["core/mpi.c: sync_mpi_photons", "core/bounds.c: rad_mpi_transport", "core/io.c: restart_init"]}
{"id": "C41", "title": "Geodesic push advances coordinate time exactly and conserves Killing momenta", "statement": "A successful push advances a particle's coordinate time by exactly the requested amount, leaves K_0 unchanged in every stationary metric (also K_phi in axisymmetric coordinates, all K in Minkowski), and keeps the previous two positions as history.", "quantifier": "all positions, momenta, metrics, step sizes and subdivision counts", "why_tests_cant": "All trajectories.", "anchors": ["core/push_superphotons.c: push_X_K, push, push_superphoton, get_K_source"]}
{"id": "C42", "title": "Adaptive subdivision uses every attempt it makes", "statement": "The push fails only if every subdivision level tried, including the last, violated the null-norm tolerance.", "quantifier": "all sequences of trial outcomes", "why_tests_cant": "Boundary of a retry loop.", "anchors": ["core/push_superphotons.c: push_X_K"]}
{"id": "C43", "title": "Interpolating a particle's position within a step", "statement": "Interpolation returns the stored states exactly at the stored times, lies on the segment between them otherwise, and is only attempted with an interval containing the requested time.", "quantifier": "all stored histories and times", "why_tests_cant": "All times.", "anchors": ["core/rad_utils.c: get_X_K_interp"]}
{"id": "C44", "title": "Emission conserves four-momentum and lepton number with the gas", "statement": "When packets are emitted the four-momentum and electron fraction removed from the gas equal the total carried by the packets (code units), each antiparallel pair has zero net momentum in the fluid frame, and counters count every packet.", "quantifier": "all emission events, weights and frames", "why_tests_cant": "All events.", "anchors": ["core/make_superphotons.c: sample_photon, make_superphotons", "core/step.c: apply_rad_force"]}
{"id": "C45", "title": "Packets are emitted at the declared emission time", "statement": "A newly emitted packet's position record carries the same time as its recorded emission time.", "quantifier": "all emission events", "why_tests_cant": "Side effect of a helper that overwrites the time slot; values look plausible.", "anchors": ["core/make_superphotons.c: sample_photon", "core/coord.c: coord"]}
{"id": "C46", "title": "Absorption hands a packet's momentum to the gas", "statement": "When a packet is absorbed its weight becomes zero and the four-force on its zone gains exactly its remaining four-momentum per unit time and volume, and the lepton-number source gains its lepton number with the right sign.", "quantifier": "all absorption events", "why_tests_cant": "All events.", "anchors": ["core/interact.c: interact"]}
{"id": "C47", "title": "Biased scattering conserves weight and momentum", "statement": "When a packet scatters with bias b >= 1 the scattered packet has weight w/b, the remainder (1-1/b)w, both nonnegative with sum w, and the gas receives exactly the difference of the momentum before and after.", "quantifier": "all weights and biases, successful and failed scatterings", "why_tests_cant": "All events; failure paths are rare in a run.", "anchors": ["core/interact.c: interact"]}
{"id": "C48", "title": "Interactions happen at a time inside the step and after the previous one", "statement": "Each interaction time lies between the packet's current time and the end of the step, successive interactions of one packet are ordered, and at most the fixed maximum number occur per packet and step.", "quantifier": "all packets and random draws", "why_tests_cant": "All random histories.", "anchors": ["core/interact.c: interact"]}
{"id": "C49", "title": "Scattering biases are safe", "statement": "After bias bounding every scattering bias is at least one and the expected number of scattered packets per packet (sum over channels of bias times optical depth) does not exceed the safety bound.", "quantifier": "all optical depths, biases and channel counts", "why_tests_cant": "All reals and channel counts.", "anchors": ["core/interact.c: bound_bias, rebalance_biases, bound_all_biases"]}
{"id": "C50", "title": "Superphoton resolution control is bounded", "statement": "Each tuning event multiplies the emission resolution by a factor between 1/2 and 4/3 and the scattering resolution by a factor between 1/4 and 5/4, keeps both positive, moves in the right direction, and happens only at the configured interval.", "quantifier": "all histories of made/absorbed/scattered counts", "why_tests_cant": "All histories.", "anchors": ["core/rad_utils.c: update_superphoton_resolution"]}
{"id": "C51", "title": "Neutrino flavour conversion conserves number and preserves lepton class", "statement": "Flavour oscillation never changes any packet's weight, momentum or position or the number of packets; a converted packet turns into the partner of the same particle/antiparticle class and converting twice restores the type; survival probabilities are in [0,1].", "quantifier": "all packets, moments and random draws", "why_tests_cant": "All histories.", "anchors": ["core/oscillations.c: oscillate, oscillate_photons, get_p_survival"]}
{"id": "C52", "title": "Fast flavour conversion removes the crossing and conserves total lepton-minus-x number", "statement": "In expectation the conversion drives the shallow region of the angular crossing to zero and conserves the angle-integrated electron-minus-x lepton number in the zone.", "quantifier": "all angular distributions with a crossing", "why_tests_cant": "Expectation identity over all distributions.", "anchors": ["core/oscillations.c: compute_local_gnu, compute_local_moments, oscillate"]}
{"id": "C53", "title": "Angular moments reflect only the current packets", "statement": "The angular moments used at a step depend only on the packet distribution of that step.", "quantifier": "all histories of steps", "why_tests_cant": "State leaks between steps are history-dependent.", "anchors": ["core/oscillations.c: accumulate_local_angles, compute_local_moments"]}
{"id": "C54", "title": "Lepton number sign conventions", "statement": "Every neutrino type has lepton sign +1, -1 or 0, antiparticles carry the opposite sign of their partner electron-flavour types and heavy types carry none.", "quantifier": "all types for every number of types", "why_tests_cant": "Configuration matrix.", "anchors": ["core/rad_utils.c: get_lepton_sign, nu_is_heavy"]}
{"id": "C55", "title": "Domain decomposition is a partition", "statement": "Every global zone belongs to exactly one rank, sub-domains are contiguous and of equal size when the rank count divides the grid, and they jointly cover the grid.", "quantifier": "all grid sizes and rank counts", "why_tests_cant": "All sizes.", "anchors": ["core/mpi.c: init_mpi"]}
{"id": "C56", "title": "Halo exchange equals the global array", "statement": "After ghost-zone exchange each rank's ghost zones hold the values of the neighbouring rank's active zones, i.e. the distributed array equals the windowed global array.", "quantifier": "all decompositions and data", "why_tests_cant": "All decompositions.", "anchors": ["core/mpi.c: sync_mpi_boundaries_X1L/X1R/..."]}
{"id": "C57", "title": "Ghost-zone contributions are added to their owner exactly once", "statement": "After synchronising the radiation four-force each active zone holds its own contributions plus everything other ranks deposited in their ghost copies of it, each once, including corners; nothing is lost inside the grid.", "quantifier": "all decompositions, deposits and grid sizes", "why_tests_cant": "Every deposit pattern including edges and corners.", "anchors": ["core/mpi.c: sync_radG"]}
{"id": "C58", "title": "File offsets of distributed particle data are disjoint and complete", "statement": "The offsets used by ranks to write variable-length particle data partition the file extent, in rank order, and reading with the same counts gives each rank exactly what it wrote.", "quantifier": "all particle counts and rank counts", "why_tests_cant": "All counts.", "anchors": ["core/mpi.c: mpi_accumulate_int", "core/io.c: restart_write, restart_read, dump_tracers"]}
{"id": "C59", "title": "A crash at any point leaves a usable restart", "statement": "If at least one restart file has been completed, then after a crash at any instant the restart pointer names a complete restart file.", "quantifier": "all crash points in all histories of restart writes", "why_tests_cant": "Crash points cannot be enumerated by running.", "anchors": ["core/io.c: restart_write, restart_init"]}
{"id": "C60", "title": "The two most recent temporary restart files are retained and permanent ones never deleted", "statement": "After any history of restart writes (and restarts from the latest file) the newest two temporary restart files exist, older temporary ones are gone, and all permanent ones exist.", "quantifier": "all histories", "why_tests_cant": "All histories.", "anchors": ["core/io.c: restart_write"]}
{"id": "C61", "title": "A restart reproduces the particle population", "statement": "Writing and re-reading a restart reproduces every particle with all its fields, on the same rank, each exactly once, spread over the threads.", "quantifier": "all particle populations, ranks and thread counts", "why_tests_cant": "All populations.", "anchors": ["core/io.c: restart_write, restart_read", "core/rad_utils.c: copy_photon"]}
{"id": "C62", "title": "Repeated spectrum reductions do not double count", "statement": "Reducing the recorded spectrum over ranks at any number of output times leaves the global total equal to what was recorded.", "quantifier": "all histories of recordings and reductions", "why_tests_cant": "All histories.", "anchors": ["core/mpi.c: mpi_reduce_nuLnu", "core/diag.c: record_superphoton"]}
{"id": "C63", "title": "Escaping packets are recorded in an existing spectral bin", "statement": "Every escaping packet's direction maps to an existing angular bin, so the recorded spectrum is updated inside its array, and the total recorded energy equals that of the recorded packets.", "quantifier": "all directions including poles and azimuth branch cut", "why_tests_cant": "All angles including edges.", "anchors": ["core/rad_utils.c: get_nuLnu_bin", "core/diag.c: record_superphoton"]}
{"id": "C64", "title": "Output cadence", "statement": "Dumps occur exactly when simulated time passes the next multiple, never skipping the final state; log and restart output obey their intervals.", "quantifier": "all sequences of time steps", "why_tests_cant": "All histories.", "anchors": ["core/main.c: main"]}
{"id": "C65", "title": "Dumped averages are reset each dump interval", "statement": "After each dump all interval-accumulated radiation diagnostics start from zero, so a dump's averages cover exactly the interval since the previous dump.", "quantifier": "all histories", "why_tests_cant": "Partial clears are invisible in single-dump tests.", "anchors": ["core/diag.c: reset_dump_variables", "core/io.c: dump"]}
{"id": "C66", "title": "Run-time parameters are read by name, all of them exactly once", "statement": "A parameter file sets each registered parameter from the line with exactly its name, and reading succeeds only if all required parameters were provided.", "quantifier": "all parameter files", "why_tests_cant": "All files.", "anchors": ["core/input.c: get_param, read_params"]}
{"id": "C67", "title": "Tracer interpolation is exact on quadratics", "statement": "The Lagrange basis used for tracers sums to one, reproduces node values exactly and interpolates every quadratic polynomial exactly in each direction.", "quantifier": "all positions and quadratic data", "why_tests_cant": "Algebraic identity.", "anchors": ["core/tracers.c: lagrange_basis, lagrange_interp_grid_3d"]}
{"id": "C68", "title": "Tracer initialisation conserves mass and gives unique ids", "statement": "Sampled tracers in a zone carry that zone's mass exactly, at least the requested number is created, and all tracer identifiers are distinct across all ranks.", "quantifier": "all zone masses, numbers of tracers and ranks", "why_tests_cant": "All distributions over ranks.", "anchors": ["core/tracers.c: sample_tracers_in_cell, sample_all_tracers, set_tracer"]}
{"id": "C69", "title": "Tracer output lists each tracer's own position", "statement": "In a tracer dump the Cartesian position columns x, y, z of each tracer equal that tracer's Cartesian position vector, and the covariant magnetic field column is the covariant field.", "quantifier": "all tracer populations", "why_tests_cant": "Index error visible only by comparing columns.", "anchors": ["core/io.c: dump_tracers"]}
{"id": "C70", "title": "Compton sampling is correct rejection sampling", "statement": "The envelope used in sampling the Klein-Nishina distribution bounds the target over the whole sampled range, and the sampled scattering angle cosine lies in [-1,1].", "quantifier": "all photon energies and scattered energies in range", "why_tests_cant": "Supremum over a continuum.", "anchors": ["core/scattering.c: sample_klein_nishina, klein_nishina, sample_scattered_rad"]}
{"id": "C71", "title": "Lorentz boosts preserve the norm and invert", "statement": "Boosting preserves the Minkowski norm of a four-vector, boosting the boost velocity itself gives the rest frame, and boosting back with reversed velocity is the identity.", "quantifier": "all four-vectors and velocities", "why_tests_cant": "All reals.", "anchors": ["core/scattering.c: boost"]}
{"id": "C72", "title": "Neutrino scattering rejection bound covers the sampled cross section", "statement": "The maximum used by the rejection sampler is an upper bound for the differential cross section over all scattering angles.", "quantifier": "all energies and angles", "why_tests_cant": "Supremum over a continuum.", "anchors": ["core/scattering.c: nu_cross, nu_cross_max, nu_cross_factor, hc_quad, hc_quad_max"]}
{"id": "C73", "title": "Cross-section table lookup stays inside the table", "statement": "Lookup in the hot cross-section table reads only existing entries and lies between the four surrounding entries.", "quantifier": "all photon energies and temperatures", "why_tests_cant": "All reals including edges.", "anchors": ["core/scattering.c: total_cross_lkup, interpolate_hc_table"]}
{"id": "C74", "title": "Ghost zones suffice for the reconstruction stencil", "statement": "Every reconstructed state used in a face flux of the active grid depends only on active zones and the three ghost zones on each side.", "quantifier": "all schemes, grid sizes and data", "why_tests_cant": "A stencil reading one zone too far returns plausible stale data.", "anchors": ["core/reconstruction.c: reconstruct", "core/step.c: fluxcalc"]}
{"id": "C75", "title": "Characteristic speeds are real, ordered and subluminal", "statement": "The two wave speeds returned for a direction are the two roots of the magnetosonic dispersion relation, are ordered, bracket the fluid velocity in that direction and do not exceed the coordinate speed of light; the squared signal speed used is always between a tiny positive value and one.", "quantifier": "all metrics, directions, four-velocities, field strengths and equation-of-state answers", "why_tests_cant": "Inequalities over all states; the Courant step and the Riemann fluxes rely on them.", "anchors": ["core/phys.c: mhd_vchar"]}
{"id": "C76", "title": "A successful recovery reproduces the conserved variables", "statement": "When primitive recovery reports success, converting the stored primitives back to conserved variables gives the conserved variables that were supplied (exactly, for an exact root), and inputs outside the domain of the inversion are reported as failures.", "quantifier": "all conserved inputs, metrics, guesses and consistent equations of state", "why_tests_cant": "Must hold for every input the scheme can produce, including unphysical ones.", "anchors": ["core/utop.c: Utoprim, gamma_func, err_eqn", "core/phys.c: primtoflux"]}
{"id": "C77", "title": "Temperature along a constant-entropy curve", "statement": "Looking up the temperature on a stored constant-entropy curve at one of the densities the curve was tabulated at returns the stored temperature, and between tabulated densities a value between the two neighbouring ones.", "quantifier": "all tables, entropies and densities on the curve", "why_tests_cant": "Every node of every table; a wrong spacing gives smooth plausible values.", "anchors": ["core/eos_stellar_collapse.c: EOS_SC_find_adiabat_1d, EOS_SC_isoentropy_hm1, lT_f_adiabat", "core/util.c: interp_1d"]}
{"id": "C78", "title": "The grid covers each polar angle exactly once and avoids the axis", "statement": "At every radius on the grid the polar grid coordinate in [0,1] corresponds one to one and monotonically to the polar angle in [0, pi], its ends and middle being the poles and the equator; the reported angle is never on the axis and within the singularity constant of the true one; Cartesian conversion and its inverse round-trip off the axis.", "quantifier": "all radii, grid coordinates and grid-stretching parameters in their ranges, with and without pole derefinement", "why_tests_cant": "Bijectivity over a continuum and all parameters.", "anchors": ["core/coord.c: th_of_X, thJ_of_X, bl_coord, cart_coord, cart_to_sph"]}
{"id": "C79", "title": "The four-current diagnostic", "statement": "The four-current written to output is zero on the first step, and from then on is assigned in every active zone the centred divergence of the densitised Maxwell tensor over 4 pi sqrt(-g), independent of anything left over in work arrays; uniform fields give no current, and on a periodic grid of uniform geometry the total charge is zero.", "quantifier": "all fields, grids and histories of the work arrays", "why_tests_cant": "Independence of stale memory contents and exact cancellation over every grid size.", "anchors": ["core/current.c: current_calc, Fcon_calc"]}
{"id": "C80", "title": "Geometry creates no energy or angular momentum along a symmetry", "statement": "The source terms added to the evolution equations equal half the contravariant stress tensor contracted with the derivative of the metric, times sqrt(-g); mass and magnetic field get none, and a metric independent of a coordinate gives exactly zero source for the momentum along that coordinate.", "quantifier": "all primitive states, equations of state, metrics and metric-compatible torsion-free connections", "why_tests_cant": "Tensor identity over all metrics and states; swapped indices give plausible numbers.", "anchors": ["core/phys.c: source, mhd_calc", "core/metric.c: conn_func"]}
{"id": "C81", "title": "Tabulated sound speed, adiabatic index and logarithms stay in their physical ranges", "statement": "Every squared sound speed obtained inside the table is strictly between zero and one whatever derivatives the table file contains, the reported adiabatic index is between 1.1 and 2, the atmosphere marker stays between its two extreme values, and every enthalpy whose logarithm is tabulated is positive after shifting.", "quantifier": "all table contents and all in-table queries", "why_tests_cant": "All tables and queries.", "anchors": ["core/eos_stellar_collapse.c: EOS_SC_init, EOS_SC_gamma, do_atm_fixup, EOS_SC_interp"]}
{"id": "C82", "title": "The minimum energy does not depend on the choice of code units", "statement": "The minimum internal energy assigned at a given physical density is the same wherever the code uses it: in the energy floor, in floored low-density zones and in the pressure inversion.", "quantifier": "all densities, unit systems and tables", "why_tests_cant": "Only shows up for particular unit choices; any value looks plausible.", "anchors": ["core/eos_stellar_collapse.c: EOS_SC_get_minu, EOS_SC_u_floor", "core/fixup.c: fixup1zone", "core/eos.c: EOS_u_press"]}
{"id": "C83", "title": "Coulomb collisions move energy from the hotter to the colder species", "statement": "The electron energy rises, stays or falls in the Coulomb update exactly as the ions are hotter than, as hot as or colder than the electrons; mass, total energy and total entropy are unchanged, and zones with a nonpositive temperature are skipped.", "quantifier": "all states, constants, steps and positive Bessel-function values", "why_tests_cant": "Four branches over all temperatures.", "anchors": ["core/electrons.c: coulomb, safe_Kn"]}
{"id": "C84", "title": "Electrons receive exactly the radiative heating of the gas", "statement": "Applying the radiation four-force changes the electron energy by minus the work of the force in the fluid frame, resets the total entropy to that of the current energy, and changes nothing without a force.", "quantifier": "all four-forces, velocities and states with unchanged density over the half step", "why_tests_cant": "Identity over all reals.", "anchors": ["core/electrons.c: apply_rad_force_e"]}
{"id": "C85", "title": "A packet scatters whenever a channel's free path ends in the step", "statement": "For every packet, if the random free path drawn for at least one scattering channel ends within the step (and absorption does not come first), an interaction takes place in that step.", "quantifier": "all packets, opacities of all channels and random numbers", "why_tests_cant": "Depends on the joint values of several channels' optical depths.", "anchors": ["core/interact.c: interact"]}
{"id": "C86", "title": "Local angular distributions contain every packet exactly once", "statement": "For each of the two directions the accumulated distribution, summed over locations, angles and types, equals the total weight (and number) of the radiation packets; every position and cosine falls into an existing bin, the one containing it where there is one.", "quantifier": "all packet lists, positions and cosines", "why_tests_cant": "Ranges over all packet populations and edge values.", "anchors": ["core/oscillations.c: accumulate_local_angles, get_local_angle_bins"]}
{"id": "C87", "title": "Propagation angles are normalised with the spatial length of the wave vector", "statement": "The cosine recorded for a packet is its projection on the direction divided by the spatial length of its wave vector, in every metric.", "quantifier": "all metrics and wave vectors", "why_tests_cant": "Right in diagonal metrics, so simple tests do not show an error.", "anchors": ["core/oscillations.c: get_local_angle_bins"]}
{"id": "C88", "title": "Writing a dump does not change the evolution", "statement": "A run evolves the same packets whether or not a dump is written at some step.", "quantifier": "all states, dumps and later steps", "why_tests_cant": "Needs a comparison of two whole runs for every history.", "anchors": ["core/io.c: dump_grid, dump", "core/oscillations.c: accumulate_local_angles"]}
{"id": "C89", "title": "Dumped angular moments are those of the direction they are labelled with", "statement": "Entry (direction, moment, location) of the dumped moments is that moment of that direction at that location.", "quantifier": "all directions, moments, locations and sizes", "why_tests_cant": "Layout of a multi-dimensional array for every size.", "anchors": ["core/io.c: dump", "core/decs.h: grid_local_moment_type"]}
{"id": "C90", "title": "A restart preserves the resolution-control counts of every rank", "statement": "The numbers of packets made and of scatterings counted since the last tuning event, which differ between ranks and whose totals over ranks drive the next change of resolution, are the same after a restart as before it.", "quantifier": "all numbers of ranks and all counts per rank", "why_tests_cant": "Only visible as a different sequence of random packet weights after a restart on several ranks; a restart test compares fluid fields.", "anchors": ["core/io.c: restart_write, restart_read, write_scalar, read_scalar", "core/rad_utils.c: update_superphoton_resolution"]}
{"id": "C91", "title": "Every packet's direction falls in an existing bin of the direction histogram", "statement": "For every direction of motion of a packet, the polar and azimuthal bins it is counted in exist, so the histogram of directions counts every packet inside its array.", "quantifier": "all directions of motion, including those along the axes", "why_tests_cant": "The failing directions are isolated points that random tests never draw.", "anchors": ["core/rad_utils.c: bin_superphoton_direction", "core/coord.c: cart_to_sph", "core/diag.c: bin_all_superphotons"]}
{"id": "C92", "title": "Tracer dumps give rates per unit time", "statement": "The emission and absorption rates written for a tracer are the numbers counted over the dump interval, interpolated to the tracer, per unit time, in every tracer dump and wherever the tracer is.", "quantifier": "all counts, dump intervals, dumps (full or not) and tracer positions", "why_tests_cant": "Right for one kind of dump and for tracers away from block edges, so tests on one dump do not show an error.", "anchors": ["core/io.c: dump, dump_tracers", "core/mpi.c: sync_radtype_vec", "core/tracers.c: lagrange_interp_grid_3d"]}
{"id": "C93", "title": "Differential and total neutrino cross sections agree", "statement": "For every energy and scatterer, the differential cross section used to draw the scattering angle integrates over all directions to the total cross section used for the optical depth.", "quantifier": "all energies, scatterers and constants", "why_tests_cant": "An integral over a continuum for every energy.", "anchors": ["core/scattering.c: nu_cross, get_total_cross_section, ms_flat"]}
{"id": "C94", "title": "A cross-section table made in parallel is the one made serially", "statement": "Whatever the number of threads and their schedule, every entry of the table of cross sections is the cross section at its own energy and temperature.", "quantifier": "all numbers of threads, divisions of the work and schedules", "why_tests_cant": "Depends on the interleaving of threads, which a test does not control.", "anchors": ["core/scattering.c: init_hc_table"]}
{"id": "C95", "title": "A run uses a cross-section table made for its own frequency range", "statement": "After any history of runs in a directory, the table a run uses holds the cross sections at the nodes it assumes when looking values up.", "quantifier": "all histories of runs and largest frequencies", "why_tests_cant": "Needs sequences of runs with different parameters.", "anchors": ["core/scattering.c: init_hc_table, interpolate_hc_table"]}
{"id": "C96", "title": "Collision angles are drawn from the distribution of encounters", "statement": "For every speed of the scatterer and every random number the sampled cosine is in range, and its distribution function, with density proportional to the encounter rate, equals the random number.", "quantifier": "all speeds and random numbers", "why_tests_cant": "A statement about a distribution for every speed.", "anchors": ["core/scattering.c: sample_mu"]}
{"id": "C97", "title": "Speeds of scatterers have the thermal distribution", "statement": "For every temperature the mixture and rejection scheme for the scatterer's energy produces the relativistic Maxwell distribution, with acceptance probabilities between zero and one and branch probabilities that sum to one.", "quantifier": "all temperatures and energies", "why_tests_cant": "Equality of densities at every temperature; a histogram test has finite resolution.", "anchors": ["core/scattering.c: sample_y, sample_beta"]}
{"id": "C98", "title": "A scattered packet moves along a null direction at the sampled angle", "statement": "For every incoming packet, scatterer and sampled energy and angle, the outgoing wave vector is null with positive energy, and in the scatterer's frame has the sampled energy and the sampled angle with the incoming direction.", "quantifier": "all wave vectors, scatterers, energies, angles and auxiliary random directions", "why_tests_cant": "Ranges over all reals, with degenerate directions of measure zero.", "anchors": ["core/scattering.c: sample_scattered_rad, boost"]}
{"id": "C99", "title": "A packet's stored history brackets the time it is asked for", "statement": "Whenever the code asks where a packet is, during or between steps, the packet has two stored states of its own around that time, so its position is interpolated, never extrapolated or taken from unset memory, and the run never stops for lack of a state.", "quantifier": "all sequences of steps, emissions, push lengths and scattering times", "why_tests_cant": "Depends on the whole history of pushes of a packet and on the relation between step sizes and light-crossing times.", "anchors": ["core/rad_utils.c: get_X_K_interp, to_be_pushed, get_dtpush", "core/push_superphotons.c: push_superphotons", "core/interact.c: interact", "core/make_superphotons.c: sample_photon"]}
{"id": "C100", "title": "Logged totals do not depend on the decomposition", "statement": "Mass, energies, momentum, the largest magnetic divergence and the fluxes through the inner edge written to the log are those of the whole grid, whatever the number of ranks in each direction.", "quantifier": "all grid sizes, numbers of ranks per direction and fluid states", "why_tests_cant": "A test runs one decomposition of one grid.", "anchors": ["core/diag.c: diag, diag_flux", "core/mpi.c: mpi_reduce, mpi_io_reduce, mpi_io_max"]}
{"id": "C101", "title": "The logged luminosity is the flux through one shell", "statement": "For every decomposition and every outer radius of the radiation, the logged luminosity is the radial energy flux of the radiation through the last shell entirely enclosed by that radius.", "quantifier": "all decompositions, radii and radiation fields", "why_tests_cant": "Errors appear only for particular positions of the radius relative to faces and rank boundaries.", "anchors": ["core/diag.c: diag"]}
{"id": "C102", "title": "Derived accretion diagnostics are well defined for every decomposition and inflow", "statement": "The logged magnetic flux, fluxes near the horizon, normalised magnetic flux and radiative efficiency are functions of the state of the grid and not of its decomposition, and are numbers for every accretion rate other than zero.", "quantifier": "all decompositions and accretion rates of either sign", "why_tests_cant": "Needs all decompositions and both signs of the mass flux.", "anchors": ["core/diag.c: diag, diag_flux"]}
{"id": "C103", "title": "The radiation stress tensor contains every packet once", "statement": "The volume integral of the radiation stress tensor over any set of zones is the summed momentum times velocity of the packets there, counts and number densities likewise; the tensor has no trace for null wave vectors, the right sign, and does not depend on the order of packets or on earlier calls.", "quantifier": "all populations of packets, sets of zones and orders", "why_tests_cant": "A conservation law for every population.", "anchors": ["core/rad_utils.c: set_Rmunu"]}
{"id": "C104", "title": "Random numbers are not shared", "statement": "No two threads of a run use the same sequence of random numbers, and a restarted run does not repeat the numbers already used.", "quantifier": "all numbers of ranks and threads, and all restart points", "why_tests_cant": "Collisions need particular pairs of rank and thread.", "anchors": ["core/random.c: init_random", "core/main.c: init_first"]}
{"id": "C105", "title": "The lepton audit adds up and stops a run that does not conserve leptons", "statement": "After every step the audited total is what is in gas and packets on all ranks plus everything lost so far; after the first step a change beyond the threshold stops the run, and a conserving run is never stopped.", "quantifier": "all histories of steps, populations, losses and numbers of ranks", "why_tests_cant": "A statement about all histories and numbers of ranks.", "anchors": ["core/diag.c: count_leptons", "core/rad_utils.c: record_lepton_flux, get_lepton_sign"]}
{"id": "C106", "title": "Histograms of origins count every packet in the bin of its origin", "statement": "In the dumped histograms of cylindrical radius and height every packet is counted once with its weight, in the existing bin that contains the place where it was made.", "quantifier": "all packets, origins, ranks they moved through and histogram limits", "why_tests_cant": "Needs packets that moved between ranks and origins at or beyond the last bin.", "anchors": ["core/diag.c: generate_rz_histograms", "core/input.c: init_params", "core/make_superphotons.c: sample_photon"]}
{"id": "C107", "title": "The log lists states in order of time", "statement": "The lines of the log have strictly increasing times, beginning with the initial and ending with the final state, also when a run is continued from a restart file.", "quantifier": "all run parameters, step sizes and restart points", "why_tests_cant": "Ranges over interruption points.", "anchors": ["core/diag.c: diag", "core/main.c: main"]}
{"id": "C108", "title": "Reported shares of types and load imbalance", "statement": "Whenever there are packets, the printed percentage of each type is its share of the total weight, the percentages add up to 100, and the load imbalance lies between 0 (all ranks equal) and 1 (an empty rank).", "quantifier": "all populations and distributions over ranks", "why_tests_cant": "Ranges over all populations.", "anchors": ["core/diag.c: print_rad_types", "core/main.c: main"]}
{"id": "C109", "title": "A fatal error is reported to the caller", "statement": "A run that stops because a fluid state has no four-velocity or no signal speeds ends on all ranks with a status that says so.", "quantifier": "all failing states, ranks and grids", "why_tests_cant": "Needs failures on subsets of ranks.", "anchors": ["core/diag.c: fail, diag", "core/phys.c: ucon_calc, mhd_vchar"]}
{"id": "C110", "title": "The logged jet power is the radial electromagnetic energy flux", "statement": "The jet column of the log is minus the radial energy flux of the electromagnetic field through the shell, over zones of magnetisation above one.", "quantifier": "all fluid states and metrics", "why_tests_cant": "Ranges over all states; a test with one state cannot tell the components apart.", "anchors": ["core/diag.c: diag", "core/phys.c: primtoflux, mhd_calc"]}
{"id": "C111", "title": "Thermal absorption follows from emission by Kirchhoff's law", "statement": "At every frequency and temperature the absorption of thermally emitting gas is its emissivity divided by the Planck function, never negative and never infinite.", "quantifier": "all frequencies, temperatures and emissivities", "why_tests_cant": "Ranges over a continuum of frequencies across the switch between two formulas.", "anchors": ["core/radiation.c: Bnu_inv, jnu_inv, alpha_inv_abs", "core/emissivity.c: jnu_gray"]}
{"id": "C112", "title": "The total emissivity is the spectral emissivity integrated", "statement": "The total emissivity of a zone, which sets the cooling time and the number of packets, is the spectral emissivity integrated over the frequencies and over all directions, for every set of processes.", "quantifier": "all states of the gas, process switches and tables", "why_tests_cant": "An identity between integrals for all states.", "anchors": ["core/emissivity.c: jnu, get_J, J_brem, J_synch, J_gray, J_flat", "core/opac_emis_hdf.c: int_jnudnudOmega_hdf"]}
{"id": "C113", "title": "Emissivities are never negative", "statement": "For every state of the gas, frequency, direction and type the emissivity is not negative.", "quantifier": "all states of the gas, electron fractions, frequencies, directions and types", "why_tests_cant": "Ranges over all states.", "anchors": ["core/emissivity.c: jnu, jnu_brem, jnu_synch, jnu_flat, jnu_gray"]}
{"id": "C114", "title": "The direction of emitted packets follows the emissivity", "statement": "A packet is emitted into a direction with probability proportional to the emissivity in that direction; the bound used to reject directions is never exceeded.", "quantifier": "all states of the gas, frequencies and directions", "why_tests_cant": "A statement about probabilities for all states.", "anchors": ["core/make_superphotons.c: sample_photon", "core/emissivity.c: jnu"]}
{"id": "C115", "title": "The frequency of emitted packets is drawn inside its table", "statement": "For every zone that emits, the table frequencies are drawn from is normalised to a maximum of one, and for all random numbers the frequency lies in the range of the run and only existing entries are read.", "quantifier": "all emissivities, random numbers and numbers of bins", "why_tests_cant": "Ranges over all emissivity samples and random numbers.", "anchors": ["core/make_superphotons.c: sample_photon, get_dnz, init_dnz", "core/rad_utils.c: linear_interp_log"]}
{"id": "C116", "title": "Emitted packets carry the emitted energy on average", "statement": "The mean energy of the packets a zone emits in a step is the emissivity integrated over frequency, direction, volume and time, whatever the packet weights.", "quantifier": "all weight functions, emissivities, numbers of threads and step sizes", "why_tests_cant": "A statement about means for all weight functions.", "anchors": ["core/make_superphotons.c: make_superphotons, sample_photon, get_dnz"]}
{"id": "C117", "title": "Opacity tables are looked up inside the table", "statement": "For every density, temperature and electron fraction, also outside the table, the value looked up interpolates between neighbouring nodes of the table: existing entries only, never outside the range of the table's values, and exact at the nodes.", "quantifier": "all tables with increasing axes and all states of the gas", "why_tests_cant": "Ranges over all tables and states.", "anchors": ["core/opac_emis_hdf.c: init_opac_emis_hdf, fill_opac_emis_hdf, rho2lrho, T2lT, catch_ye"]}
{"id": "C118", "title": "An opacity table written out and read back gives the same values", "statement": "Every value of a table written by one run is found by a run with the same frequencies and types at the same density, temperature, electron fraction, type and frequency; a table of a different shape is refused.", "quantifier": "all tables, numbers of types and frequency grids", "why_tests_cant": "Ranges over all shapes of tables.", "anchors": ["core/opac_emis_neutrino.c: opac_emis_to_hdf", "core/opac_emis_hdf.c: init_opac_emis_hdf, jnu_hdf"]}
{"id": "C119", "title": "Radiation and fluid solver see the same gas", "statement": "For every fluid state the velocity and magnetic field the radiation uses in a zone are those of the fluid solver, in physical units, and the field strength is a number.", "quantifier": "all fluid states and metrics", "why_tests_cant": "Two independent implementations that must agree for every state and metric.", "anchors": ["core/rad_utils.c: get_fluid_zone", "core/phys.c: get_state, ucon_calc, bcon_calc"]}
{"id": "C120", "title": "Frequencies and angles are those measured by the fluid", "statement": "For every packet and fluid state the frequency used for absorption and scattering is positive and is the one an observer moving with the gas measures, and the angle with the field is the one in that frame.", "quantifier": "all fluid states, metrics and future-directed null wave vectors", "why_tests_cant": "Ranges over all states, metrics and directions.", "anchors": ["core/radiation.c: get_fluid_nu, get_bk_angle", "core/interact.c: interact"]}
{"id": "C121", "title": "Radiation uses the state of the gas of the present step", "statement": "Every zone that emits, absorbs or scatters packets in a step does so with temperature, composition and opacity computed in that step.", "quantifier": "all histories of zones, builds and steps", "why_tests_cant": "Ranges over histories in which zones turn into atmosphere and back.", "anchors": ["core/rad_utils.c: precompute_microphysics", "core/make_superphotons.c: get_dnz", "core/interact.c: interact", "core/step.c: step"]}
{"id": "C122", "title": "The step resolves the cooling time", "statement": "The next step is so short that no emitting zone loses more than the given fraction of its energy by emission in it, whatever the decomposition of the grid.", "quantifier": "all states, decompositions and thread schedules", "why_tests_cant": "Ranges over all states and decompositions.", "anchors": ["core/rad_utils.c: get_min_dt_cool, get_dt_cool_rad_zone, set_cooling_time", "core/step.c: step"]}
{"id": "C123", "title": "Repaired zones do not depend on the division of the grid", "statement": "A zone where recovery failed is given the same value however the grid is divided among ranks, and from zones whose state belongs to the same stage of the step.", "quantifier": "all divisions of the grid, histories of repairs and sets of failed zones", "why_tests_cant": "Needs all histories of repairs and all divisions.", "anchors": ["core/fixup.c: fixup_utoprim", "core/bounds.c: bound_prim", "core/mpi.c: sync_mpi_boundaries_X1L", "core/step.c: step, advance, apply_rad_force", "core/coord.c: zero_arrays"]}
{"id": "C124", "title": "Fluid updates do not depend on the threads", "statement": "For every number of threads, division of the zones among them and interleaving of their accesses, the update of the fluid, the radiation four-force and constrained transport give the same result: that of updating every zone from the values before the loop.", "quantifier": "all schedules of the threads, grids, states, and both stages of the step", "why_tests_cant": "Schedules cannot be enumerated by tests; a race shows only in some.", "anchors": ["core/step.c: advance, apply_rad_force, flux_ct"]}
{"id": "C125", "title": "Contributions of packets are not lost", "statement": "For every schedule of the threads the four-force, counts, optical depths and absorbed energy of a zone grow by the sum of the contributions of the packets absorbed there.", "quantifier": "all lists of absorbed packets and schedules of the threads", "why_tests_cant": "A lost update shows only when two threads meet in a zone.", "anchors": ["core/interact.c: interact"]}
{"id": "C126", "title": "Fluid evolution does not depend on the division of the grid", "statement": "Two builds of the same problem on the same grid that differ only in the numbers of ranks along the three directions, started from the same fluid variables, give after any number of steps the same time, the same next step and the same fluid variables in every zone, whatever the work arrays hold.", "quantifier": "all grids, divisions, boundary choices, initial states, solvers, contents of work arrays and numbers of steps", "why_tests_cant": "a test compares two divisions of one grid; the claim is about every division, every boundary choice and every length of run", "anchors": ["core/step.c:step", "core/step.c:advance", "core/step.c:fluxcalc", "core/step.c:flux_ct", "core/bounds.c:bound_prim", "core/bounds.c:fix_flux", "core/fixup.c:fixup_utoprim", "core/mpi.c:sync_mpi_boundaries_X1L"]}
{"id": "C127", "title": "Magnetic divergence stays fixed on the whole divided grid through whole runs", "statement": "For every division of the grid and every number of steps, at every corner of eight zones inside the grid, including corners where two, four or eight ranks meet, the divergence of the field is the one of the initial state, in full-step and half-step states, whatever recoveries fail and whatever is repaired.", "quantifier": "all grids, divisions, boundary choices, initial states, solvers, failed recoveries, contents of work arrays and numbers of steps", "why_tests_cant": "a test measures a few runs; corners between ranks and failed recoveries in all combinations, for any number of steps, cannot be enumerated", "anchors": ["core/step.c:advance", "core/step.c:flux_ct", "core/fixup.c:fixup_utoprim", "core/bounds.c:bound_prim", "core/utop.c:Utoprim"]}
{"id": "C128", "title": "Totals over all ranks change only by sources and outer faces", "statement": "In a step whose full update needs neither repair nor floors, the total over all ranks of a conserved variable changes by its sources at the half step and the fluxes through the outer faces of the whole grid; faces between ranks contribute nothing. On a periodic box the totals of variables without source stay the same through whole runs, however the box is divided, also if half-step states had to be repaired.", "quantifier": "all grids, divisions, periodic or other boundaries, solvers with exact recovery, contents of work arrays and numbers of steps", "why_tests_cant": "a test sees rounding-level drift on one box and one division; cancellation at every face between ranks for all divisions and fluxes is an algebraic fact", "anchors": ["core/step.c:advance", "core/step.c:step", "core/step.c:fluxcalc", "core/step.c:flux_ct", "core/bounds.c:bound_prim"]}
{"id": "C129", "title": "A step is the midpoint rule and second order in time", "statement": "In a step without repairs and floors the half-step state is the old state advanced by half the step with the rates of the old state, the new state is the old state advanced by the whole step with the rates of the half-step state, on any division of the grid; if the rates are linear in the variables this is the solution up to and including second order in the step.", "quantifier": "all grids, divisions, boundary choices, solvers with exact recovery, states, step lengths and contents of work arrays", "why_tests_cant": "convergence tests measure an order for a few problems; the statement is an identity for every state and step length", "anchors": ["core/step.c:step", "core/step.c:advance", "core/step.c:fluxcalc"]}
{"id": "C130", "title": "Boundary exchange completes and does not depend on timing", "statement": "However fast the ranks run relative to each other, and whether or not the message library buffers, the exchange of ghost zones never blocks, ends after a bounded number of actions, leaves no message behind and gives every rank the zones of an exchange in which all ranks act at once.", "quantifier": "all grids, divisions, boundary choices, contents, interleavings of ranks and buffering choices", "why_tests_cant": "timing and buffering differ between machines and runs; a test sees a few interleavings", "anchors": ["core/bounds.c:bound_prim", "core/mpi.c:sync_mpi_boundaries_X1L", "core/mpi.c:sync_mpi_boundaries_X1R", "core/mpi.c:init_mpi"]}
{"id": "C131", "title": "A step never blocks", "statement": "Whatever zones failed to recover on whatever ranks, all ranks get through the repair, the boundary update and the reductions of a step, with a result that does not depend on timing.", "quantifier": "all divisions, sets of failed zones, interleavings of ranks, buffering choices and numbers of steps", "why_tests_cant": "a rank that loses all its zones at once is rare and the hang depends on what other ranks do", "anchors": ["core/fixup.c:fixup_utoprim", "core/fixup.c:fixup", "core/timing.c:timer_start", "core/timing.c:timer_stop", "core/step.c:step", "core/bounds.c:bound_prim"]}
{"id": "C132", "title": "A fluid run by messages is the run of all ranks at once", "statement": "Whatever the interleaving of the ranks and whatever the message library buffers, a fluid run of any number of steps in which no rank gives up all its zones alone ends, leaves no message behind, and every rank then holds the variables, flags, time and next step of the run in which all ranks act at once. Hence, if no recovery fails, two divisions of one grid give the same variables in every zone, the same time and the same next step, under any two schedules and with anything left in work arrays.", "quantifier": "all grids, divisions, boundary choices, solvers, initial states, contents of work arrays, interleavings, buffering choices and numbers of steps", "why_tests_cant": "schedules and divisions cannot be enumerated, and a difference may show after any number of steps", "anchors": ["core/step.c:step", "core/step.c:advance", "core/step.c:fluxcalc", "core/bounds.c:bound_prim", "core/fixup.c:fixup_utoprim", "core/mpi.c:mpi_max", "core/mpi.c:mpi_min", "core/main.c:init_final"]}
{"id": "C133", "title": "A fluid run that is stopped and resumed goes on as if it had not been stopped", "statement": "A run stopped after any number of steps and resumed from its restart file, any number of times and each time on any division of the grid, gives the same time, next step and variables in every zone as the run that was never stopped; the file does not depend on the order in which the ranks write.", "quantifier": "all grids, divisions of each part of the run, boundary choices, solvers, initial states, contents of memory and of the file before writing, orders of writing, numbers of steps and of restarts", "why_tests_cant": "a restart test compares one stop of one run on one division; what is not in the file may matter only later or only where a recovery fails", "anchors": ["core/io.c:restart_write", "core/io.c:restart_read", "core/io.c:restart_init", "core/io.c:write_array", "core/io.c:read_array", "core/coord.c:zero_arrays", "core/step.c:step"]}
{"id": "C134", "title": "Gas and packets exchange momentum without loss through any number of steps on any number of ranks", "statement": "Energy and momentum of the gas plus those of all packets, summed over the whole grid and all ranks, are not changed by emission, motion, absorption and scattering of a step, wherever near the borders of a rank the interactions take place, provided the component is conserved along the path of a packet; the force of a step is applied once and none is carried over to the next, so over a run the sum changes only by what happens between these parts.", "quantifier": "all grids, divisions, boundary choices, packet lists, random draws, weights, biases, step lengths and numbers of steps", "why_tests_cant": "a test compares totals of one run within sampling noise; a contribution lost at a border of ranks is smaller than that", "anchors": ["core/step.c:step", "core/step.c:apply_rad_force", "core/make_superphotons.c:make_superphotons", "core/interact.c:interact", "core/bounds.c:bound_superphotons", "core/mpi.c:sync_radG"]}
{"id": "C135", "title": "Exchange of packets between ranks completes and does not depend on timing", "statement": "However fast the ranks run relative to each other, and whether or not the message library buffers, the exchange of packets never blocks, ends after a number of actions bounded by the number of ranks alone, takes no number for packets or packets for a number, receives each message into a buffer of its size, leaves no message behind, and gives every rank the packets of an exchange in which all ranks act at once; the counters of sent, received and held packets agree with the lists, and no packet is lost or doubled on the way.", "quantifier": "all grids of ranks, boundary choices, packet lists of any length on every rank, interleavings of ranks and buffering choices", "why_tests_cant": "all messages of the exchange carry the same tag and their lengths depend on earlier messages, so a mistake shows only under particular timings and packet distributions", "anchors": ["core/mpi.c:sync_mpi_photons", "core/rad_utils.c:swap_ph", "core/rad_utils.c:bound_rad_transport"]}
{"id": "C136", "title": "Adding up ghost-zone contributions between ranks completes with the same result under every schedule", "statement": "Adding the contributions in ghost zones to the zones they belong to, for the radiation force, the interaction tallies and the vectors over particle types, exchanges messages between neighbouring ranks without ever blocking, and whatever the interleaving of ranks and the buffering of messages the arrays are those obtained if all ranks acted at once: every deposit is in its zone once. This holds call after call; nothing left in a receive buffer by an earlier call is added.", "quantifier": "all decompositions, zones per rank, boundary types, array contents, numbers of calls and schedules", "why_tests_cant": "The order in which ranks send, receive and add is not under the control of a test, and leftovers in buffers only matter after other calls.", "anchors": ["core/mpi.c: sync_radG, sync_Jrad, sync_radtype_vec, reduce_radG_buf"]}
{"id": "C137", "title": "A parallel run never hangs, and all ranks take the same steps and write the same files", "statement": "A run on any number of ranks that start with the same clock never blocks: however fast the ranks run relative to each other and whether or not messages are buffered, it can go on until all ranks are through. Every schedule ends, with the same memory on every rank, the same sequence of steps and of dumps, logs and restart files as a single time loop with the smallest of the proposed steps, unless all ranks end the program early; at every moment of a run files written by two ranks are the same as far as both have come. With radiation it always ends if the first step does not cross the end of the run.", "quantifier": "all decompositions, build options, boundary types, results of the physics between messages, run parameters, initial memory, schedules and buffering choices", "why_tests_cant": "A decision made from data that differ between ranks blocks a run only in rare states and under particular timings; a test cannot visit them all.", "anchors": ["core/main.c: main", "core/step.c: step, advance, fluxcalc", "core/mpi.c: mpi_min, mpi_max, mpi_reduce, mpi_io_reduce, mpi_barrier", "core/fixup.c: fixup_utoprim", "core/diag.c: diag, count_leptons", "core/rad_utils.c: update_superphoton_resolution, set_cooling_time", "core/timing.c: timer_start, timer_stop"]}
{"id": "C138", "title": "Tracers move with the gas and carry its velocity", "statement": "A tracer particle moves along the path of the gas: the velocity used is the coordinate velocity of the gas interpolated to its position (slower than light wherever the metric is), its clock advances by the length of the step, in uniform gas it moves exactly with the gas, and over any number of steps its distance from the path of the gas is of second order in the length of the steps and of first order in the error of the interpolated velocities. The four-velocity stored with it is that of the gas at its position and time.", "quantifier": "for all grids, metrics, gases, positions, sequences of steps of any number and lengths", "why_tests_cant": "tests compare a few tracers with a few flows at a few resolutions; a wrong half step or a velocity of the wrong time level changes results by less than the tolerance", "anchors": ["core/tracers.c: push_tracers, tracer_rhs, lagrange_interp_prim_3d, set_tracer", "core/push_superphotons.c: push_X_K, push_superphoton"]}
{"id": "C139", "title": "Tracers are removed only where the gas was replaced, and are counted", "statement": "In each step exactly the tracers in zones whose gas was changed by floors during that step are removed; all other particles stay in the lists, unchanged and in order, and the memory of removed ones is given back. The number of tracers written to the log and to the screen is the number of tracers in the run.", "quantifier": "for all lists of particles, marks of zones, numbers of ranks and steps", "why_tests_cant": "floors in zones with tracers are rare in test problems, and the list surgery depends on the position of removed particles in the list", "anchors": ["core/tracers.c: prune_tracers", "core/fixup.c: fixup1zone", "core/step.c: step", "core/push_superphotons.c: push_superphotons", "core/bounds.c: bound_superphotons", "core/diag.c: diag, reset_log_variables", "core/main.c: main"]}
{"id": "C140", "title": "Temperatures from the tabulated equation of state reproduce the energy", "statement": "With a tabulated equation of state whose energy rises with temperature, the temperature found from any density, energy, electron fraction and stored guess is found without stopping the program, and for a state in the table the table has the given energy at that temperature, to within the tolerance of the search; setting the energy from a temperature and looking the temperature up again returns it. The same holds when enthalpy or pressure is given.", "quantifier": "all tables of any size rising with temperature, all densities, energies, electron fractions and guesses", "why_tests_cant": "a test inverts some states of one table; cells in which a bound is looked up wrongly or the search leaves the table are a small part of it", "anchors": ["core/eos_stellar_collapse.c: EOS_SC_fill, EOS_SC_get_u_of_T, EOS_SC_pressure_rho0_w, EOS_SC_u_press, find_lT, catch_var_2d, catch_var_2d_monotone", "core/root_finding.c: find_root"]}
{"id": "C141", "title": "Arrays in files hold every zone at its place and are read back on any division", "statement": "In dump, grid and restart files every number of every zone (and every corner of a zone) is found at the zone's place in the whole grid, as the rank holding the zone had it, however the grid is divided evenly among ranks and in whatever order ranks write; a restart on another division gives every zone of every rank the number it had, and leaves ghost zones alone. Arrays written by the output rank alone are read back unchanged, and every number in the grid file was set by the run.", "quantifier": "all grid sizes, even divisions, orders of ranks, numbers of ghost zones and of components, all contents", "why_tests_cant": "a test looks at one grid on one division; a wrong offset or stride shows only for some rank counts or shapes, and memory never set often looks right", "anchors": ["core/io.c: write_array, read_array, dump_grid, init_io, restart_write, restart_read", "core/mpi.c: init_mpi", "core/decs.h: N1, ZLOOP"]}
{"id": "C142", "title": "The initial magnetic field of a torus has no divergence", "statement": "The field a torus problem starts from, computed by every rank from its own zones and ghost zones by differencing a potential at corners, normalised, and with a net flux added or not, has zero divergence (as the code itself measures it) at every corner inside the grid, also where ranks meet; so does the toroidal field.", "quantifier": "all densities that do not depend on azimuth, metrics, spacings, normalisations, even divisions, previous contents of the arrays", "why_tests_cant": "divergence that is not zero initially is carried through the run; a test sees one density on one division, and an offset of one corner shows only at the border of ranks", "anchors": ["prob/torus_cbc/problem.c: init_prob", "prob/torus/problem.c: init_prob", "prob/torus_eht/problem.c: init_prob", "core/diag.c: flux_ct_divb"]}
{"id": "C143", "title": "The initial field of a torus has the strength asked for, on any division", "statement": "The ratio of the largest gas pressure to the largest magnetic pressure in the initial torus is the parameter beta, in each field configuration, and the net flux added is the parameter BHflux; both fields are the same on any division of the grid among ranks.", "quantifier": "all gas and metrics, field configurations, divisions, beta, BHflux", "why_tests_cant": "a strength that depends on the number of processes is not seen in a run on one process, where tests are done", "anchors": ["prob/torus_cbc/problem.c: init_prob", "prob/torus/problem.c: init_prob", "core/mpi.c: mpi_max, mpi_reduce"]}
{"id": "C144", "title": "The initial velocity is the one the problem asks for", "statement": "A problem that sets the velocity of the gas in Boyer-Lindquist components and converts it gets, in the coordinates of the run, the future unit vector with those components: the velocity read back from the primitive variables is its image under the two changes of coordinates. Holds for rotating tori and for spherical inflow, whatever the velocity.", "quantifier": "all spins, zones outside the ergosphere, grids, velocities", "why_tests_cant": "a wrong factor in one component is not seen while that component is zero, as it is in every torus shipped", "anchors": ["prob/torus_cbc/problem.c: coord_transform", "prob/torus/problem.c: coord_transform", "prob/torus_eht/problem.c: coord_transform", "prob/bondi/problem.c: get_prim_bondi, set_ut, bl_to_ks, fourvel_to_prim", "core/coord.c: set_dxdX", "core/metric.c: blgset"]}
{"id": "C145", "title": "The initial torus is in equilibrium", "statement": "Inside the initial torus, where no least value acts, density, energy, pressure and velocity solve the equation of motion of gas on circular orbits, in every direction, for every equation of state; the gas ends at the inner edge asked for and the pressure is stationary at the radius of greatest pressure asked for.", "quantifier": "all spins, inner edges, radii of greatest pressure, adiabats, points, curves", "why_tests_cant": "the formulas are rational functions with roots and logarithms; a torus slightly out of equilibrium oscillates, which a short test does not tell from the perturbation added on purpose", "anchors": ["prob/torus_cbc/problem.c: init_prob, lfish_calc", "prob/torus/problem.c: init_prob", "prob/torus_eht/problem.c: init_prob", "core/eos_stellar_collapse.c: EOS_SC_isoentropy_hm1"]}
{"id": "C146", "title": "Gas on a curve of constant entropy has that entropy", "statement": "Gas set up on a curve of constant entropy of the tabulated equation of state has, at each density of the table, the entropy and electron fraction asked for, at a temperature in the table; an entropy the table does not have at that electron fraction is reported as a failure; nothing outside the table is read.", "quantifier": "all tables whose entropy rises with temperature, entropies, electron fractions, enthalpies, guesses", "why_tests_cant": "which densities are on the curve depends on two root searches that may fail, succeed outside the table or accept an end; a wrong spacing between densities gives plausible gas", "anchors": ["core/eos_stellar_collapse.c: EOS_SC_find_adiabat_1d, EOS_SC_isoentropy_hm1, find_adiabat_0d, adiabat_lrho_min_max, ent_f_adiabat, lT_f_adiabat", "core/util.c: interp_1d, find_index", "prob/torus_cbc/problem.c: init_prob"]}
{"id": "C147", "title": "The total Compton cross section is that of the scatterings drawn", "statement": "The total cross section of a photon and an electron at rest is, at every photon energy, the integral of the distribution scattered energies are drawn from; it is positive, at most the Thomson cross section, and falls with energy.", "quantifier": "all photon energies", "why_tests_cant": "the total is coded apart from the distribution, by a series below one energy and a formula above it; a wrong coefficient shows only in a small range of energies", "anchors": ["core/scattering.c: hc_klein_nishina, klein_nishina, get_total_cross_section"]}
{"id": "C148", "title": "The scattering opacity of light uses the cross section of the electrons there are", "statement": "The cross section from which the scattering opacity of light is made is the thermal average over the electrons at their temperature: it is defined at every energy and temperature of the table, is not negative, falls with photon energy and is at most its Thomson limit; for electrons too cold for the table it is that of electrons at rest.", "quantifier": "all photon energies and electron temperatures", "why_tests_cant": "two branches besides the table are chosen by a product and a temperature; a wrong branch changes opacities smoothly and only for some photons", "anchors": ["core/scattering.c: total_cross_lkup, total_cross_num, boostcross, dNdgammae, init_hc_table"]}
{"id": "C149", "title": "The particle light scatters from is drawn in proportion to the cross section it shows", "statement": "The particle a packet scatters from is drawn from the thermal distribution weighted by the cross section at the energy the packet has in the frame of that particle, however many draws it takes; its momentum is on its mass shell and the packet has that energy in its frame.", "quantifier": "all packets, temperatures, cross sections and sequences of random numbers", "why_tests_cant": "accepting draws is random, and the number of draws has no bound", "anchors": ["core/scattering.c: sample_gas_particle, sample_beta, sample_mu, get_total_cross_section"]}
{"id": "C150", "title": "Compton scattering leaves an electron", "statement": "The momentum left to the electron by a photon that is scattered is that of an electron: on its mass shell, with positive energy.", "quantifier": "all photons, electrons, directions and sequences of random numbers", "why_tests_cant": "energy and angle are coupled through three frames; an error in one leaves every photon null and positive", "anchors": ["core/scattering.c: sample_scattered_rad, sample_cross_section, sample_klein_nishina, boost"]}
{"id": "C151", "title": "Scatterers of neutrinos hold the mass the composition says", "statement": "The number densities of protons, neutrons, alpha particles and heavy nuclei that neutrinos are scattered by hold, with the mass of their nucleons, the mass the composition says, and their temperatures are in units of their own rest energies.", "quantifier": "all densities, temperatures and compositions", "why_tests_cant": "a factor in the mass of one species scales an opacity everywhere and is not visible in any one run", "anchors": ["core/rad_utils.c: scatterer_number_density, scatterer_dimensionless_temp"]}
{"id": "C152", "title": "Momentum of radiation and gas is kept by the steps of a run on many ranks, in any order of messages", "statement": "In a run on several ranks in which packets are emitted, absorbed and scattered, sources are summed and packets change ranks by messages, the energy and momentum of all gas and packets together after any number of steps are those before, whatever the order in which ranks act and messages arrive; no rank waits for ever, no message is left over and no packet is lost or doubled.", "quantifier": "all decompositions, contents of zones and packets, random choices, numbers of steps and schedules", "why_tests_cant": "the orders in which ranks can act grow without bound, and an error between two exchanges shows only when a packet is absorbed beyond the edge of a rank", "anchors": ["core/step.c: step", "core/step.c: apply_rad_force", "core/bounds.c: bound_superphotons", "core/mpi.c: sync_radG, sync_mpi_photons"]}
{"id": "C153", "title": "A packet that scatters leaves with the wave vector drawn, wherever it is", "statement": "A packet which is to scatter in warm gas is scattered: its new wave vector has, in the frame of the gas, the components drawn there, so that it is null and has the frequency drawn; its covariant components are those of the same vector.", "quantifier": "all metrics, velocities of the gas, packets and draws", "why_tests_cant": "depends on the sign of the energy at infinity, which is negative only for some directions close to a rotating hole", "anchors": ["core/scattering.c: scatter_superphoton", "core/tetrads.c: normalize_null, normalize_null_cov, make_tetrad"]}
{"id": "C154", "title": "Units are consistent", "statement": "In a run with any units, the speed of light is one, the gravitational radius is one around a black hole, masses, energies and magnetic energies in code units times the units are those in cgs; the energy a packet carries in code units is the number of its photons times their energy; the optical depth of a step is the absorption coefficient times the length of the step in the frame of the gas; and gas counts as too magnetised exactly when its magnetisation exceeds the limit.", "quantifier": "all units of length and mass, masses of the hole, metrics, states of the gas, packets and steps", "why_tests_cant": "conversions are spread over many functions and only combinations of them are observable; a test fixes one set of units", "anchors": ["core/util.c: set_units", "core/rad_utils.c: get_fluid_zone", "core/radiation.c: get_fluid_nu", "core/interact.c: interact"]}
{"id": "C155", "title": "Electrons and ions have together the pressure of the gas", "statement": "Electrons at the temperature which emission, absorption and scattering use, and as many ions at tp_over_te times that temperature, have together the pressure of the gas; with evolved electrons, electrons have the pressure the fluid solver gives them, and electrons and ions of equal pressures exchange no heat.", "quantifier": "all densities, energies, adiabatic indices, ratios of temperatures and units", "why_tests_cant": "a relation between quantities of different modules, with an error too small for tolerances of tests", "anchors": ["core/util.c: set_units", "core/eos_gamma.c: EOS_Gamma_Theta_unit", "core/rad_utils.c: get_Thetae", "core/electrons.c: coulomb"]}
{"id": "C156", "title": "The radial grid reaches five zones into the horizon", "statement": "Around a black hole, for every number of radial zones from six on, every spin and every outer radius outside the horizon, on every division into ranks: zones have positive width, the grid ends at the outer radius, exactly the first five zones end inside the horizon, the horizon is inside the sixth and all others begin outside.", "quantifier": "all numbers of zones, spins, outer radii, ranks and zones", "why_tests_cant": "a relation between a closed formula for the inner radius and the numbering of zones on all ranks; a run shows it for one grid", "anchors": ["core/coord.c: set_points, coord", "core/metric.c"]}
{"id": "C157", "title": "The last stable orbit is where it should be", "statement": "For every spin below one in size, the radius called innermost stable circular orbit is the one where the energy of circular orbits turning with the hole is stationary, and circular orbits outside it are stable.", "quantifier": "all spins", "why_tests_cant": "a closed formula with cube roots for the root of a quartic; tables give a few values", "anchors": ["core/coord.c: set_points"]}
{"id": "C158", "title": "Spherical inflow starts as a steady flow", "statement": "In the spherical inflow problem every zone is given the state of the steady transonic flow: the flux of mass through spheres and the energy per mass are the same in all zones, the flow passes the speed of sound at radius eight, and the temperature solves the equation of the flow for every adiabatic index and at every radius of the grid.", "quantifier": "all adiabatic indices, radii, grids and zones", "why_tests_cant": "the state comes out of an iteration whose end depends on radius and adiabatic index; the test problem uses one grid and one index", "anchors": ["prob/bondi/problem.c: get_Tfunc, get_T, get_prim_bondi, init_prob"]}
{"id": "C159", "title": "The parameter file a build writes is accepted and carries what was asked for", "statement": "For every configuration and every script of a problem that sets the parameters the build asks for: the build writes the parameter file to its end, the program accepts it, every parameter the program uses is in it, with the value of the problem's script if that sets it and the core default otherwise.", "quantifier": "all configurations, scripts of problems and parameters of problems", "why_tests_cant": "two programs in two languages keep lists of names that must agree in every combination of compile-time options; each test problem is one combination", "anchors": ["script/config.py: set_rparm, write_rparm, build", "core/input.c: set_core_params, read_params, get_param"]}
{"id": "C160", "title": "A number given in a build script is the number the program runs with", "statement": "Every number given as run-time or compile-time parameter in a build script reaches the program unchanged, and so do the core defaults.", "quantifier": "all numbers", "why_tests_cant": "numbers pass through decimal text; numbers with few digits, as in tests, do not show it", "anchors": ["script/config.py: write_rparm, build", "core/input.c: read_params"]}
{"id": "C161", "title": "Changing one parameter in a parameter file changes that one only", "statement": "If the program accepts a parameter file, then after the value of one parameter was changed with the tool for it, the program accepts the file, that parameter has the new value, and all others have the values they had.", "quantifier": "all files, names and values", "why_tests_cant": "depends on how every other line of the file relates to the name; tests change three names", "anchors": ["script/util.py: change_rparm", "core/input.c: read_params, get_param"]}
{"id": "C162", "title": "Smoothing a table replaces outliers and nothing else", "statement": "When the noisy derivatives of an equation of state table are smoothed, an entry with a full box of neighbours is replaced by the median of the box exactly when it is farther from it than ten times its size, all other entries keep their values, the result does not depend on the order of the pass or on the sort, and no bound of the table is exceeded.", "quantifier": "all tables of all sizes, all sorting routines", "why_tests_cant": "ranges over all tables, including those smaller than the box; the pass runs in place over a copy", "anchors": ["core/eos_stellar_collapse.c: median_filter, fill_mdn_buffer, EOS_SC_init", "core/util.c: find_median, compare_doubles"]}
{"id": "C163", "title": "Gas thinner than the table is one polytrope that continues the table", "statement": "Below the lowest density of the table the pressure, enthalpy, entropy and sound speed are those of one polytrope for each electron fraction, which takes over from the table without a jump; gas at or above the density floor always uses the table.", "quantifier": "all tables, densities, energies, temperatures and electron fractions", "why_tests_cant": "a limit at a density where two formulas meet, for every table", "anchors": ["core/eos.c: EOS_pressure_rho0_u, EOS_pressure_rho0_w, EOS_enthalpy_rho0_u, EOS_entropy_rho0_u, EOS_sound_speed_rho0_u", "core/eos_stellar_collapse.c: EOS_SC_get_polytrope, EOS_SC_get_min_rho, EOS_SC_rho_floor, EOS_SC_init"]}
{"id": "C164", "title": "The adiabatic index reported for tabulated gas is that of the table", "statement": "At every point of the table the adiabatic index reported is the logarithmic derivative of the pressure with density at constant entropy, as far as it lies in the range the program allows.", "quantifier": "all tables and points", "why_tests_cant": "an identity between derivatives for all tables", "anchors": ["core/eos_stellar_collapse.c: EOS_SC_gamma, EOS_SC_init", "core/eos.c: EOS_get_gamma, EOS_adiabatic_constant"]}
{"id": "C165", "title": "The composition handed to the opacities is a composition", "statement": "For every state in the table the mass fractions used for scattering are not negative, add up to one, and carry the electron fraction of the gas, if the fractions stored in the table do.", "quantifier": "all tables and states inside them", "why_tests_cant": "holds at the points of the table by assumption; all states between them matter", "anchors": ["core/eos_stellar_collapse.c: EOS_SC_mass_fractions, EOS_SC_avg_ions, EOS_SC_interp", "core/rad_utils.c: get_fluid_zone"]}
{"id": "C166", "title": "Synchrotron emission per frequency is that per direction, integrated, and its tables are not overrun", "statement": "For every density, temperature, field strength and frequency the tabulated emissivity used to draw the frequencies of packets is the emissivity per solid angle, used to draw their directions, integrated over all directions, and no table is read outside its bounds.", "quantifier": "all densities, temperatures, field strengths and frequencies, all sizes of the tables", "why_tests_cant": "an identity of integrals for a continuum of states, with exceptions at single points of it", "anchors": ["core/emissivity.c: jnu_synch, Jnu_synch, jnu_integrand_synch, init_emiss_tables, F_eval_synch, K2_eval_synch, linear_interp_F_synch, linear_interp_K2_synch"]}
{"id": "C167", "title": "Everything the visualisation index of a dump names exists", "statement": "After every dump the index written for visualisation names only files and arrays that the run has written, with their sizes and precision, every variable is shown under its own name, and the part shown, up to the radius asked for, lies inside the arrays.", "quantifier": "all builds, grids, spacings of full dumps, dump numbers and radii", "why_tests_cant": "ranges over all combinations of build options and over names in two files written by different code", "anchors": ["core/xdmf_output.c: write_xml_file, geom_meta, coord_meta, prim_meta, scalar_meta, vec_meta, vec_component, tensor_component", "core/io.c: dump, dump_grid", "core/coord.c: bl_i_of_r"]}
{"id": "C168", "title": "Tabulated neutrino opacities of a state are those of the table, and of its nearest state outside", "statement": "For every density, temperature and electron fraction the opacity and emissivity returned are the density times the tabulated value per mass, interpolated between the states around it and never beyond the values in the table; a state outside the table gets the value of the nearest state inside; no read is outside the table.", "quantifier": "all tables, densities, temperatures and electron fractions up to one", "why_tests_cant": "ranges over all tables and a continuum of states, most of which a simulation with floors visits outside the table", "anchors": ["core/opacity_table_module.f90: get_opacity_emissivity", "core/opac_emis_neutrino.c: fill_opac_emis_burrows, opac_emis"]}
{"id": "C169", "title": "Each species gets the tabulated values of its own species at the energy of each group", "statement": "Before use a table of neutrino opacities is put on the frequencies of the run: each group of each species gets the values of that species at the energy of the group, interpolated between the energies around it and those of the nearest energy outside the range, per hertz; for every number of species the program can be built with.", "quantifier": "all energies, tables, numbers of groups and of species", "why_tests_cant": "an index calculation across two languages for all sizes, and a continuum of energies", "anchors": ["core/opacity_table_module.f90: init_opacity_table", "core/opac_emis_neutrino.c: init_opac_emis_burrows, opac_emis, fill_opac_emis_burrows"]}
{"id": "C170", "title": "Composition is carried with the mass", "statement": "A passive scalar is recovered exactly from its conserved counterpart, whether it counts per mass or per volume; floors leave numbers as they were and only bring electron fractions into the table and the atmosphere marker between 0 and 1; and a number per mass that is the same everywhere stays the same everywhere, in every step of every run.", "quantifier": "all numbers and kinds of passive scalars, all gas states (shocks, failed recoveries, floors), schemes, grids, boundaries that copy, all numbers of steps", "why_tests_cant": "an invariant of all runs: a test follows one flow, and the exception needs gas moving inwards at a boundary", "anchors": ["core/phys.c: primtoflux", "core/step.c: advance, fluxcalc, lr_to_flux", "core/bounds.c: fix_flux", "core/utop.c: Utoprim", "core/passive.c: fixup_passive, init_passives", "core/eos_stellar_collapse.c: do_ye_fixup, do_ye_em_fixup, do_atm_fixup", "core/fixup.c: fixup1zone"]}
{"id": "C171", "title": "In double arithmetic, a run comes to its end", "statement": "With time and step rounded as the machine rounds them: time never goes back, and a run whose proposed steps stay above a positive bound ends after finitely many steps, exactly at the final time.", "quantifier": "all formats of floating-point numbers, all ways of rounding to nearest, all sequences of proposed steps, all final times", "why_tests_cant": "rounding errors that matter are one in a last place and depend on the exact sequence of steps; a stall is only seen by waiting for ever", "anchors": ["core/step.c: step", "core/main.c: main", "core/decs.h: SMALL, SAFE"]}
{"id": "C172", "title": "In double arithmetic, a packet is found in a zone of its rank", "statement": "With every operation of the lookup rounded: the centre of a zone is found in that zone, a position away from faces in the zone it is in, and a packet a rank keeps is found in one of the zones of the rank.", "quantifier": "all formats, all ways of rounding to nearest, all grids whose zones are wider than eight last places, all ranks, all positions", "why_tests_cant": "positions within rounding of a face are hit by chance once in about 10^15 packets; a test never has one", "anchors": ["core/rad_utils.c: Xtoijk", "core/coord.c: coord, set_points", "core/bounds.c: bound_rad_transport"]}
{"id": "C173", "title": "Tracers are collected once, when they first meet the condition", "statement": "Collecting tracers from a directory of tracer files gives each tracer that ever is outside the radius asked for, once, with its state in the first dump in which it is; with a temperature given, each tracer that falls to it, with its state in the first dump in which it has; for any number of processes.", "quantifier": "all directories of tracer files in order of time, all radii and temperatures, all numbers of processes", "why_tests_cant": "a test has one set of files; the results that are wrong depend on how a tracer cools between two dumps and on the number of processes", "anchors": ["script/analysis/accumulate_tracers.py: accumulate_directory, accumulate_files, accumulate_files_parallel", "script/analysis/hdf5_to_dict.py: TracerData"]}
{"id": "C174", "title": "The trace of a tracer is its whole history", "statement": "The trace saved for a tracer has one record for each time at which the tracer is in any of the files, in order of time; it is saved in exactly one directory; pruning the files or reading only some tracers changes no trace of a tracer that is kept.", "quantifier": "all tracer files (with times repeated by resumed runs), all sets of tracers, all numbers of directories, all shuffles", "why_tests_cant": "the files are shuffled at random, and a resumed run repeats times", "anchors": ["script/analysis/hdf5_to_dict.py: TracerData.get_trace, load_tracers", "script/analysis/prune_tracers.py: prune_directory, prune_file", "script/analysis/tracers_data_to_traces.py: split_ids, save_traces_in_dir"]}
{"id": "C175", "title": "Pruning removes the tracers its options describe", "statement": "Tracers are removed exactly if they are at or inside the least radius, at or outside the greatest, higher than the greatest height, closer to a pole than the angle given, or further from the latitude given than its range.", "quantifier": "all positions, all options", "why_tests_cant": "a statement about all positions; a tracer near the axis is rare in the files used to try the script", "anchors": ["script/analysis/prune_tracers.py: _cond_rmin, _cond_rmax, _cond_pole, _cond_zmax, _cond_theta"]}
{"id": "C176", "title": "In double arithmetic the divergence of the magnetic field changes only by rounding", "statement": "With every operation of the magnetic update rounded as the program does it, the divergence at a corner between active zones changes in one step by at most 78 units of rounding times the size of the numbers of that step (field and b^0 u^j times the volume element, plus time step times flux over width) over the zone width, whatever the fluxes, velocities, ghost zones and stale work arrays; over a history by at most the sum, so linearly in the number of steps; and what is reported differs from the divergence of the stored field by at most 31 units of rounding. It is not exactly constant.", "quantifier": "all grids, geometries, widths, histories of steps, fluxes and velocities, all binary formats with at least 7 digits, all roundings to nearest", "why_tests_cant": "a run has one history; that the drift cannot grow faster than linearly, or depend on how large the electric field errors are, is a statement about all of them", "anchors": ["core/step.c: flux_ct, advance", "core/phys.c: primtoflux, bcon_calc", "core/utop.c: Utoprim", "core/diag.c: flux_ct_divb"]}
{"id": "C177", "title": "A run can be started from the fluid of an earlier run", "statement": "If the parameter init_from_grmhd names a restart file of an earlier run on a grid of the same size, then after initialisation every active zone of every rank holds the variables that zone of the grid had in the earlier run, whatever the divisions of the grid among ranks in the two runs.", "quantifier": "all grids, divisions of the two runs, numbers of ghost zones and variables, contents of the file, orders of writing", "why_tests_cant": "a test starts one run from one file on one division; whether the file is used at all is silent, as no status of the file library is looked at", "anchors": ["core/io.c: init_fluid_restart, restart_write, dump", "core/main.c: main, init_core, init_final", "core/coord.c: zero_arrays"]}
{"id": "C178", "title": "The time average of dumps is their mean", "statement": "The script that averages dumps writes, for each array of numbers of the dumps, the mean over the dumps from the first to the last of those asked for, for any dumps that hold the same arrays.", "quantifier": "all lists of dumps, first and last index, arrays, positions", "why_tests_cant": "the average is of whatever dumps there are; that one of them is left out or that one kind of array stops the script does not show on a few dumps by eye", "anchors": ["script/analysis/average_dumps.py: avg_dump_files, average_dir", "script/analysis/dump_3d_to_2d.py: copy_hdr, get_data"]}
{"id": "C179", "title": "Averaging a dump over azimuth keeps what the zones held", "statement": "The average over azimuth lies between the smallest and the largest value, is the value itself if that is the same all around, is linear, does not depend on where the ring of zones is cut open, keeps the amount held (value times volume), and weights each zone with its own volume element.", "quantifier": "all numbers of zones, values, metrics, shapes of arrays", "why_tests_cant": "the sum over weights of a quadrature rule is checked for one number of zones and one field at a time; the claim is about all of them, and about which axis of an array is which", "anchors": ["script/analysis/dump_3d_to_2d.py: avg_phi, get_padded_metric, copy_hdr"]}
{"id": "C180", "title": "Radial profiles are means over shells", "statement": "The density-weighted profile and the mean over the sphere exist wherever the gas has mass, lie between the smallest and the largest value on the shell, are linear, and in two dimensions equal those of the same gas spread evenly over azimuth; the integral over a shell of something not negative is between 1/9 and 16/9 of the sum over its zones.", "quantifier": "all shells of at least two by two zones, densities, metrics, values", "why_tests_cant": "must hold for every field and every number of zones, odd and even", "anchors": ["script/analysis/sadw.py: integrate_shell, get_density_weighted_profile, get_spherical_average"]}
{"id": "C181", "title": "Zones next to rank boundaries are interpolated", "statement": "With the option to repair zones at rank boundaries, the two zones at each boundary get the value of the straight line through the zones next to them, and no other zone changes except the first and the last, which get that of their neighbour.", "quantifier": "all numbers of zones and ranks, coordinates, values", "why_tests_cant": "interpolated and copied values look alike in a plot; the claim is for all data and all boundaries", "anchors": ["script/analysis/dump_3d_to_2d.py: interp_ghosts, put_along_axis"]}
{"id": "C182", "title": "Plane wave problems start without magnetic divergence", "statement": "The field that the plane wave problems in one, two and three dimensions start from has, for every mode, axis and numbers of zones, zero divergence, as the code measures it, at every corner of the grid.", "quantifier": "all modes, axes, numbers of zones, corners", "why_tests_cant": "one run at one resolution shows the divergence of that run; whether the field has one depends on the ratio of the numbers of zones, and on digits of numbers given for a mode", "anchors": ["prob/mhdmodes1d/problem.c: init_prob", "prob/mhdmodes2d/problem.c: init_prob", "prob/mhdmodes3d/problem.c: init_prob", "core/diag.c: flux_ct_divb"]}
{"id": "C183", "title": "Plane wave problems start with a wave of the linear equations", "statement": "For every mode and axis, what a plane wave problem starts from is, to the digits given, a wave that solves the linearised equations of relativistic magnetohydrodynamics at all times and places, and that is back where it was when the run ends.", "quantifier": "all dimensions, modes, axes, times, places", "why_tests_cant": "a run shows a solution with errors of the method, larger than a wrong digit of a mode; that the numbers solve the equations is a statement about all times and places", "anchors": ["prob/mhdmodes1d/problem.c: init_prob", "prob/mhdmodes2d/problem.c: init_prob", "prob/mhdmodes3d/problem.c: init_prob"]}
{"id": "C184", "title": "Advection problems move the gas with the speed asked for", "statement": "In the advection problem in one dimension the gas moves with the velocity asked for along the axis asked for, for every velocity below that of light in either direction; in two and three dimensions it moves along the diagonal. The pattern carried along is back where it was when the run ends.", "quantifier": "all velocities, axes, places", "why_tests_cant": "the problem is run with one speed; which speeds are turned away, and what happens to negative ones, is a matter of all speeds", "anchors": ["prob/advection1d/problem.c: init_prob", "prob/advection2d/problem.c: init_prob", "prob/advection3d/problem.c: init_prob"]}
{"id": "C185", "title": "The entropy wave moves as its test expects", "statement": "The density of the entropy wave, carried along with the gas, is at all times the one the test compares with; the wave fits into the box and moves along its wave vector in every number of dimensions; in three dimensions it is back where it was when the run ends.", "quantifier": "all times, places, numbers of dimensions", "why_tests_cant": "the test looks at one time, at which the difference is half a percent of a period, less than the errors of the method at low resolution", "anchors": ["prob/entropy/problem.c: init_prob", "test/entropy.py"]}
{"id": "C186", "title": "A table made from an ideal gas behaves as the ideal gas", "statement": "With a table made by the project's script for an ideal gas, every state in the range of the table has, to the tolerance of the temperature search, the pressure, temperature and energy of that ideal gas, whether found from the energy, the enthalpy or the pressure; a table made for ranges of density and energy covers every state in them.", "quantifier": "all ranges, numbers of nodes, adiabatic indices, unit systems, states and stored guesses", "why_tests_cant": "tests compare one run with a table to one without, at the resolution of the run; states near an edge of the table, where bounds cut values, are not met", "anchors": ["script/analysis/make_tabulated_gamma.py: make_table_u, make_table_temp", "core/eos_stellar_collapse.c: EOS_SC_init, EOS_SC_fill, EOS_SC_pressure_rho0_w, EOS_SC_u_press"]}
{"id": "C187", "title": "Enthalpy and sound speed of a table made from an ideal gas are interpolated from those of the gas", "statement": "Loading a table made for an ideal gas leaves its derivatives as they are in spite of the median filter; the specific enthalpy and the square of the sound speed lie on the straight line, in the logarithm of temperature, between those of the ideal gas at the temperatures of the table around, at every density and electron fraction.", "quantifier": "all tables of ideal gases, all densities, temperatures and electron fractions in range", "why_tests_cant": "a test compares a few entries; that the filter changes none, and that what depends on temperature only still does after the interpolation, concerns all entries and all points", "anchors": ["script/analysis/make_tabulated_gamma.py: make_table_temp", "core/eos_stellar_collapse.c: EOS_SC_init, median_filter, EOS_SC_specific_enthalpy_rho0_u, EOS_SC_sound_speed"]}
{"id": "C188", "title": "Each column of the log is read as what it is", "statement": "In every build, each column that the analysis takes from a row of the log holds the quantity it is called by; reading a row never fails; with radiation, or without the options on angular distributions, no column is left out.", "quantifier": "all combinations of radiation type, electrons, tracers, oscillations and angular distributions, all values", "why_tests_cant": "tests load the log of one configuration; a column shifted in another shows as plausible numbers under a wrong name", "anchors": ["core/diag.c: diag", "script/analysis/hdf5_to_dict.py: load_diag", "core/io.c: dump"]}
{"id": "C189", "title": "A log continued by restarts is read as the history of the run", "statement": "The rows read are in order of time and each is a row of the file as a whole; for a run in several sessions, the rows read are those of the sessions, where each session replaces what earlier ones logged from its start on.", "quantifier": "all logs, all numbers of sessions, all times of restarts", "why_tests_cant": "a test uses one log; what survives depends on how far back a restart goes", "anchors": ["script/analysis/hdf5_to_dict.py: load_diag", "core/diag.c: diag"]}
{"id": "C190", "title": "No row of the log of one session is lost", "statement": "Every row that a run without restarts logs, at increasing times, is read by the analysis.", "quantifier": "all increasing lists of times and all rows", "why_tests_cant": "in a test run times are small, where five digits tell them apart; they merge late in long runs", "anchors": ["core/diag.c: diag", "script/analysis/hdf5_to_dict.py: load_diag"]}
{"id": "C191", "title": "The four-vectors the analysis computes are those of the simulation", "statement": "From the variables of a zone and the geometry of the grid file, the analysis recovers the four-velocity and the magnetic four-vector, up and down, that the program works with; they have norm -1, are orthogonal, and give the square the program uses.", "quantifier": "all states, all Lorentzian geometries", "why_tests_cant": "tests look at plots; a sign of a shift term or an index shows only for moving gas in a curved metric", "anchors": ["script/analysis/hdf5_to_dict.py: get_state, load_dump", "core/phys.c: get_state"]}
{"id": "C192", "title": "Vectors given in other coordinates are the same vectors", "statement": "The components of velocity and magnetic field that a loaded dump has in the coordinates t, r, theta, phi and t, x, y, z are those of the same vectors and covectors: along every path the derivatives of the new coordinates, and for covectors the same value on every vector.", "quantifier": "all grids, points, states and paths", "why_tests_cant": "transposed matrices give the right answer where they are symmetric, and plausible numbers elsewhere", "anchors": ["script/analysis/hdf5_to_dict.py: load_dump, grid_matrix_multiply", "core/coord.c: jac_harm_to_bl, jac_bl_to_cart, jac_harm_to_cart", "core/io.c: dump_grid"]}
{"id": "C193", "title": "The stresses of the analysis are those of the program, and their trace-free parts have no trace", "statement": "Fluid and magnetic stress sum to the stress tensor the program evolves; the parts called trace-free have no trace; the size of the magnetic one is the square of the magnetic vector.", "quantifier": "all states, all geometries", "why_tests_cant": "no test takes a trace", "anchors": ["script/analysis/hdf5_to_dict.py: get_stresses, delta", "core/phys.c: mhd_calc"]}
{"id": "C194", "title": "Every dump a run writes can be loaded, with all its arrays", "statement": "In every build that the script allows, each dump, full or reduced, loads without error, and all arrays written are in the result, the histograms of positions excepted.", "quantifier": "all combinations of metric, radiation, electrons, equation of state, output options, oscillations, angular distributions; full and reduced dumps", "why_tests_cant": "a test loads full dumps of one build", "anchors": ["script/analysis/hdf5_to_dict.py: load_hdr, load_geom, load_dump, get_dumps_full", "core/io.c: dump, dump_grid"]}
{"id": "C195", "title": "The test suite says that all tests passed exactly if they did", "statement": "The suite reports success exactly if every test came to its end in this run, and every result is finite, lies within its reference and deviates from it on average by less than the threshold of the test. It always comes to an end.", "quantifier": "all lists of tests, all results, everything the tests write", "why_tests_cant": "the suite is what does the testing; nothing tests it", "anchors": ["test/test_all.py: L1_norm, main loop", "test/bondi.py", "test/oscillations.py", "test/mhdmodes1d.py"]}
{"id": "C196", "title": "The reference of the electron fraction test is the decay of gas that loses what it radiates", "statement": "The solution which the test of electron fraction compares with is, for neutrinos and antineutrinos, for gas at rest and in motion, the history of gas that loses exactly the leptons which its emission carries away; and the program follows it on average.", "quantifier": "all units, densities, frequency ranges, velocities and times", "why_tests_cant": "a test that shares an error with the program passes", "anchors": ["test/yedecay.py", "prob/yedecay/build.py", "core/make_superphotons.c: sample_photon, get_dnz", "core/emissivity.c: jnu_flat, J_flat"]}
{"id": "C197", "title": "Packets placed at the start are complete and as many as asked for", "statement": "Problems that start with packets give each a null wave vector of the energy asked for and all the entries later steps read, with types in the fractions asked for; together they stand for the number of particles asked for, for every number of threads.", "quantifier": "all parameters, random numbers, numbers of zones and threads", "why_tests_cant": "tests use one number of threads, and memory that happens to be zero", "anchors": ["prob/binning/problem.c", "prob/multiscatt/problem.c", "prob/comptonization/problem.c", "prob/oscillations/problem.c"]}
{"id": "C198", "title": "The flavour conversion test starts and ends where its script says", "statement": "The angles placed at the start are distributed as the script of the test says, and its formulas for the numbers after conversion are those the program gives on average, for every angular distribution.", "quantifier": "all random numbers, all angular distributions", "why_tests_cant": "the script only plots the comparison", "anchors": ["test/oscillations.py", "prob/oscillations/problem.c: distmu, init_prob", "core/oscillations.c: oscillate"]}
{"id": "C199", "title": "The reference of the shock tube test is the solution of gas dynamics for the start of the program", "statement": "The curves which the shock tube test compares with obey the conservation laws of nonrelativistic ideal gas everywhere, across all jumps included, begin with the two states the program starts from, and contain only a compressive shock; the pressure they need exists and is unique; and slowing the problem down and scaling it back does not change them.", "quantifier": "all ideal gases and pairs of states with the higher pressure on the left, all times, places and scalings", "why_tests_cant": "the test compares the program with this reference; nothing tests the reference", "anchors": ["test/sod.py", "prob/sod/problem.c: init_prob", "prob/sod/build.py"]}
{"id": "C200", "title": "Every kind of radiation is radiated once", "statement": "For every way to ask for radiation in a build file, the energy radiated by a zone in a step is on average the total emissivity of the gas times the time of the step.", "quantifier": "all accepted values of the options, all zones, weights and emissivities", "why_tests_cant": "tests use one spelling of the option", "anchors": ["script/config.py: RADIATION, RAD_NUM_TYPES", "core/make_superphotons.c: set_weight, get_dnz, sample_photon", "core/emissivity.c: get_J"]}
{"id": "C201", "title": "The bremsstrahlung cooling test starts and cools as its reference", "statement": "With every option of the test, gas starts within a thousandth of the temperature the reference starts from, and gas that radiates what its emissivity says cools as the equation of the reference says.", "quantifier": "all options, units, temperatures and final times", "why_tests_cant": "a test run with one option shows nothing about the other", "anchors": ["test/brem.py", "prob/brem/problem.c: init_prob", "prob/brem/build.py", "core/emissivity.c: jnu_brem, Jnu_brem"]}
{"id": "C202", "title": "The reference of the thermalisation test comes to rest exactly at equilibrium", "statement": "The gas starts within a thousandth of the temperature of the reference; the reference conserves the energy of gas and radiation, emits and absorbs as the program, and is at rest exactly where every frequency holds black body radiation of the temperature of the gas.", "quantifier": "all units, temperatures, frequencies, numbers of bins and solutions", "why_tests_cant": "the test compares with this reference; nothing tests the reference", "anchors": ["test/thermalization.py", "prob/thermalization/problem.c: init_prob", "prob/thermalization/build.py", "core/radiation.c: alpha_inv_abs, Bnu_inv"]}
{"id": "C203", "title": "A converted restart file has every packet once", "statement": "After an old restart file has been converted, the processes of the resumed run read together exactly its packets, each once; every process reads those it had if the names of the old datasets are in the order of the processes.", "quantifier": "all numbers of processes, names and packets", "why_tests_cant": "a single converted file shows nothing about other numbers of processes", "anchors": ["script/analysis/restart_flatten_particles.py", "core/io.c: restart_read, restart_init"]}
{"id": "C204", "title": "The test of tabulated equations of state passes only if the table gives back the ideal gas", "statement": "If the test passes, every temperature, pressure, sound speed and energy looked up in any zone is a number within a per cent of the right one.", "quantifier": "all results of looking up, all zones, all numbers of processes", "why_tests_cant": "a test cannot show what it does not notice", "anchors": ["prob/table/problem.c: init_prob", "test/table.py", "test/test_all.py", "prob/table/build.py"]}
{"id": "C205", "title": "A resumed run makes packets of the same weights", "statement": "A run that is stopped and resumed any number of times makes packets of the same weights as one that is not stopped.", "quantifier": "all histories of steps and stops, all emissivities and tunings", "why_tests_cant": "weights depend on the whole history of tunings and stops", "anchors": ["core/io.c: restart_init, restart_write, restart_read", "core/make_superphotons.c: set_weight", "core/rad_utils.c: update_superphoton_resolution"]}
{"id": "C206", "title": "The check of transformation matrices passes exactly if metric and matrices are right", "statement": "The script that compares a grid file with the metric of a black hole passes if the metric and the matrices in the file are right, and only if they give the metric of the black hole to a thousandth.", "quantifier": "all metrics, matrices, spins and places outside the horizon", "why_tests_cant": "the places and spins a check is accurate for are infinitely many", "anchors": ["script/analysis/jacobians.py: Jacobians", "script/analysis/check_transformation_matrices.py: check_transformation_matrices"]}
{"id": "C207", "title": "Floors keep the motion of strongly magnetised gas across the field", "statement": "When floors act in full strength on a strongly magnetised zone, the velocity of its gas across the magnetic field, and with it the electric field, stays as it was.", "quantifier": "all zones, geometries, fields, velocities, floors and equations of state", "why_tests_cant": "ranges over all states and geometries in which floors act", "anchors": ["core/fixup.c: fixup1zone, ut_calc_3vel, ucon_to_utcon"]}
{"id": "C208", "title": "Floors of weakly magnetised gas add material at rest", "statement": "When floors act on a weakly magnetised zone they add material at rest: the new state is recovered from a mass and energy raised by exactly the missing density and energy with the momentum and the magnetic field unchanged, and a state recovered exactly is not below the density floor.", "quantifier": "all zones, geometries, fields, velocities, floors and equations of state", "why_tests_cant": "ranges over all states and geometries in which floors act", "anchors": ["core/fixup.c: fixup1zone", "core/phys.c: primtoflux, mhd_calc", "core/eos_gamma.c: EOS_Gamma_set_floors"]}
{"id": "C209", "title": "Floors fall outward and bound the magnetisation for every equation of state", "statement": "For every equation of state the floors of density and energy of a zone are not larger the farther it is from the centre, with a continuous and strictly decreasing scale, and they are never below the field energy over the largest magnetisations, so that a zone at its floors is within them.", "quantifier": "all equations of state, radii, energies and fields, all powers and break radii of the scale", "why_tests_cant": "ranges over all radii, fields and tables", "anchors": ["core/fixup.c: get_scale", "core/eos.c: EOS_set_floors", "core/eos_stellar_collapse.c: EOS_SC_set_floors, EOS_SC_rho_floor, EOS_SC_u_floor, EOS_SC_get_minu", "core/eos_gamma.c: EOS_Gamma_set_floors", "core/eos_poly.c: EOS_Poly_set_floors"]}
{"id": "C210", "title": "Luminosities are the energy of the packets that left", "statement": "The luminosities the analysis script works out from a dump, added up over types and multiplied by the output interval, are the energy of the packets that left in the range of frequencies, and its frequencies are in the bins of the packets.", "quantifier": "all histories of packets, ranges of frequencies and numbers of bins", "why_tests_cant": "ranges over all spectra and packets", "anchors": ["script/analysis/luminosities.py: get_luminosity_from_dump", "script/analysis/extract_lnu.py: get_time_series", "script/analysis/hdf5_to_dict.py: load_hdr", "core/diag.c: record_superphoton"]}
{"id": "C211", "title": "The outflow table counts the gas that gets away", "statement": "Of the tracers on the extraction sphere the outflow table counts exactly those whose gas carries a positive energy at infinity, each in at most one of the polar and equatorial groups according to its elevation, with masses that do not exceed the whole and mean electron fractions between those of the tracers.", "quantifier": "all files of tracers", "why_tests_cant": "ranges over all sets of tracers", "anchors": ["script/analysis/get_mass_Ye_from_tracers.py: get_bernoulli, filter_angle, get_intersection, OutflowProperties, make_table"]}
{"id": "C212", "title": "The numbers of packets are controlled from the times and strengths of the parameter file", "statement": "A run starts with the strengths of emission and scattering given in the parameter file, keeps them until the times given there, and changes them at the first step at or past these times.", "quantifier": "all parameters, compile-time choices and histories of steps", "why_tests_cant": "ranges over histories of any length", "anchors": ["core/rad_utils.c: init_superphoton_resolution, update_superphoton_resolution", "core/input.c: init_params", "script/config.py"]}
{"id": "C213", "title": "The control of the numbers of packets keeps up with the run", "statement": "When no step is longer than the interval of the control, the number of changes of each strength is the number of times of its schedule that have passed, so that from the first time on no interval goes by without a change.", "quantifier": "all histories of steps no longer than the interval", "why_tests_cant": "ranges over histories of any length", "anchors": ["core/rad_utils.c: update_superphoton_resolution"]}
{"id": "C214", "title": "Light crosses at most a fraction of a zone in a step", "statement": "The crossing time of a zone is the shortest time in which light at its centre crosses it in one of the directions, neither packets nor waves of the fluid are faster there, and in every step of a run with radiation light crosses at most the Courant number of any zone, all directions taken together; in flat space a push takes a packet into a neighbouring zone at most.", "quantifier": "all geometries and sizes of zones with a shortest step of at least 5e-20, all histories of cooling times, all packets", "why_tests_cant": "ranges over all geometries, directions of light and histories", "anchors": ["core/coord.c: set_grid", "core/step.c: step", "core/rad_utils.c: get_dtpush", "core/phys.c: mhd_vchar"]}
{"id": "C215", "title": "The record of a packet loses nothing", "statement": "The members of a packet share no byte and lie within its record; for any number of packets a restart file gives back, a file of tracked packets gives, and a message between ranks delivers every member of every packet with the bytes it had; only the link to the next packet is not in a file.", "quantifier": "all numbers of packets, all values of their bytes, all contents of the file and the buffers before, all numbers of copies and dimensions", "why_tests_cant": "ranges over all memories and numbers of packets; a record that is wrong for one layout can be right for another", "anchors": ["core/io.c: init_io", "core/io.c: track_ph, write_array, read_array", "core/mpi.c: init_mpi, sync_mpi_photons", "core/decs.h: struct of_photon, struct of_track_photon"]}
{"id": "C216", "title": "The file of an equation of state is taken as it is or rejected", "statement": "A run that goes on after reading the file of an equation of state has in every table what the file has, each value at the index under which the code looks it up; a file that lacks a dataset, or has one of another size than it says, ends the run.", "quantifier": "all files", "why_tests_cant": "ranges over all files and all indices of tables of any size", "anchors": ["core/eos_stellar_collapse.c: EOS_SC_init", "core/eos_stellar_collapse.h: EOS_ELEM"]}
{"id": "C217", "title": "The zero of the internal energy does not matter", "statement": "The recommended settings of the zero of the internal energy give every point of a table the same sound speed; under all settings the energy of a point leads back to its entry in the table, so to the same temperature and pressure; energies under two settings differ by a multiple of the density and a constant; with the shift of the total energy, and without any shift, no point has an energy of zero or less.", "quantifier": "all tables, shifts and settings, all points", "why_tests_cant": "ranges over all tables and settings, which are fixed when the code is compiled", "anchors": ["core/eos_stellar_collapse.h: USE_ENERGY_SHIFT, OFFSET_U, OFFSET_H_CS", "core/eos_stellar_collapse.c: EOS_SC_init, le2e, e2le, e2u, u2e"]}
{"id": "C218", "title": "A run writes in the directory the parameter file names", "statement": "Whatever output directory the parameter file gives, the run makes the directories of its dumps, restarts, XML files and tracers in it, and writes to these.", "quantifier": "all output directories a parameter file can hold, with and without tracers", "why_tests_cant": "ranges over all names of directories of any length", "anchors": ["core/io.c: init_io", "core/util.c: safe_system", "core/input.c: set_core_params, read_params"]}
{"id": "C219", "title": "A recovery that stops short of the root changes the energy only", "statement": "At whatever value the search for the primitives stops, if the relation for the Lorentz factor is regular there, the state stored has exactly the mass, the three momenta and the magnetic field that were supplied, and an energy that differs by the volume element times the residual. Where the slopes of the residual are bounded the residual at an accepted value is at most the tolerance times the value times a factor of the slope, by whichever test it was accepted, and the value is as near to the root. Over a run on a periodic box totals drift by at most the error of one recovery for each zone and step.", "quantifier": "all metrics, equations of state that agree with themselves, conserved variables, guesses and stopping points; all numbers of steps, zones and ranks", "why_tests_cant": "ranges over all states and all ways in which an iteration can stop", "anchors": ["core/utop.c: Utoprim, err_eqn, gamma_func", "core/step.c: advance"]}
{"id": "C220", "title": "Rounding changes the totals by a bounded amount for each zone and step", "statement": "With every operation of the update rounded to the nearest number of a format of at least seven digits, the total of a conserved variable over the grid changes in a step by the sources and the fluxes through the outer faces, up to 34 units of rounding of the size of the numbers for each zone. On a periodic box without sources it drifts over any number of steps by at most this, plus the error of the recovery in between, for each zone and step.", "quantifier": "all formats with subnormals, roundings to nearest, grid sizes, zone widths, states, fluxes and sources of bounded size (above the subnormal range), and numbers of steps", "why_tests_cant": "ranges over all states and histories; a test sees the rounding of one run", "anchors": ["core/step.c: advance"]}
{"id": "C221", "title": "Tracer files yield their variables whatever was read before", "statement": "Reading a tracer file of any run gives its headers, its units, the variables every file has and the optional ones it has, unchanged, whatever files have been read before. The files of a directory yield every variable of every file, in order. A reduced copy can be read and yields the variables kept, unchanged.", "quantifier": "all files, runs, values and sequences of files read before", "why_tests_cant": "ranges over all histories of a session; a test that reads one file does not see what reading leaves behind", "anchors": ["script/analysis/hdf5_to_dict.py: TracerData, load_tracer, load_tracers", "script/analysis/reduce_tracers.py: reduce_file", "core/io.c: dump_tracers"]}
{"id": "C222", "title": "Abundances collected from the tracers are averages weighted by mass", "statement": "With every number of processes, the abundances collected from the output of the nuclear network are the averages over the files that can be read and are wanted, weighted by the mass of their tracers, and the mass given is the total mass of those.", "quantifier": "all files, contents, selections and numbers of processes", "why_tests_cant": "ranges over all numbers of processes and ways to split the files among them, and all files missing", "anchors": ["script/analysis/accumulate_skynet_output.py: _accumulate_abundances_worker, accumulate_abundances_parallel"]}
{"id": "C223", "title": "The table of mass fractions has a row for each tracer", "statement": "The file of mass fractions has one row for each tracer whose output can be read, with its identifier, its mass and its mass fractions of lanthanides and actinides, as its header says.", "quantifier": "all directories and files", "why_tests_cant": "ranges over all numbers of tracers and files missing", "anchors": ["script/analysis/accumulate_skynet_mass_fractions.py: get_data_once, get_all_in_dir, get_all_in_dirs, make_file"]}
{"id": "C224", "title": "Splitting a file of tracers keeps every record and every trace", "statement": "For every shuffle and every number of parts, each record of a file of tracers goes to exactly one part, all records of a tracer to the same one and in their order, so that its trace there is its trace in the whole file. The numbers of tracers of the parts differ by at most one, and no part overwrites another or the original.", "quantifier": "all files of tracers, numbers of parts and shuffles", "why_tests_cant": "ranges over all shuffles and sizes", "anchors": ["script/analysis/partition_tracers.py: split_ids, partition"]}
{"id": "C225", "title": "Extended traces join the recorded ones and expand homologously", "statement": "A trace extended beyond the end of a run has the recorded densities, temperatures and radii in the first nine tenths of its time. From its last record on the density falls with the cube of the time (to which 1e-20 seconds are added), the radius grows with the time and the temperature follows the adiabat through the last record; in between there are averages of the two. All three are positive and continuous in time, and the times written increase if the final time is later than eleven tenths of the last one.", "quantifier": "all traces of two or more records with increasing times, units, times and final times", "why_tests_cant": "ranges over all traces and real times; powers and interpolation, continuity at all times", "anchors": ["script/analysis/tracers_to_PRISM.py: HomologousExpansion, TraceExtrapolator, extrapolate_trace"]}
{"id": "C226", "title": "Smoothing keeps length, bounds and straight lines", "statement": "A signal not shorter than the window is smoothed to one of the same length, whose entries are the averages over the window around them of the signal reflected at its ends, for every window and every length of it, even ones too. It stays within the bounds of the signal, constants are unchanged and so are straight lines away from the ends. Shorter signals are refused. Smoothed logarithms of a positive signal give a positive one within its bounds.", "quantifier": "all signals, windows and lengths", "why_tests_cant": "ranges over all lengths of signal and window; slices with negative indices differ by the parity and at the shortest signals", "anchors": ["script/analysis/tracers_to_PRISM.py: signal_smooth, log_smooth"]}
{"id": "C227", "title": "Traces are handed on from where they are colder for good", "statement": "Every trace that ends colder than the given temperature is handed on from a record on after which it is not hotter, the first temperature being below the given one by less than the tolerance. What is handed on has no gaps and at least half of the records from there.", "quantifier": "all traces, temperatures and tolerances", "why_tests_cant": "ranges over all histories of the temperature, with any number of crossings", "anchors": ["script/analysis/tracers_to_PRISM.py: value_crossing, get_cutoff, cleanup_trace"]}
{"id": "C228", "title": "Trajectories have the units their header names", "statement": "The columns of a trajectory are the time in seconds, the temperature in GK, the density in g/cm3 and the radius in centimetres, as the header says.", "quantifier": "all traces and units", "why_tests_cant": "ranges over all traces and systems of units", "anchors": ["script/analysis/tracers_to_PRISM.py: extrapolate_trace, to_file", "script/analysis/units.py: cgs"]}
{"id": "C229", "title": "Converting many traces converts each or fails", "statement": "In every mode and with every schedule of the processes, all traces that can be converted are, and the script ends with an exception if one cannot.", "quantifier": "all modes, sets of files, numbers of processes, schedules and failures", "why_tests_cant": "ranges over all schedules and failures of files", "anchors": ["script/analysis/tracers_to_PRISM.py: convert_file, convert_path_by_files, convert_path_by_time"]}
{"id": "C230", "title": "Table lookups stay inside the table in floating-point arithmetic", "statement": "In double arithmetic, with a correctly rounded logarithm, the lookup of a scattering cross section at any temperature in the range of the table uses only entries of the table, with weights between zero and one; the position found differs from the exact one by less than 2^-38 of an interval.", "quantifier": "all roundings to nearest, axes and doubles in the range of the table", "why_tests_cant": "ranges over all doubles; the ends of the range are where rounding matters and tests do not look", "anchors": ["core/scattering.c: init_hc_table, interpolate_hc_table"]}
{"id": "C231", "title": "The temperature expected at the end of a step balances the energy", "statement": "With the option to estimate the electron temperature, the temperature found for a zone solves the equation stated: the energy of the electrons changes by what they absorb, less what they emit, less what scattering gives to the radiation.", "quantifier": "all zones, packets, emissivities, depths and equations of state", "why_tests_cant": "ranges over all populations of packets and real temperatures; a sign is wrong only when packets absorb", "anchors": ["core/estimate_thetae.c: dEdt"]}
{"id": "C232", "title": "The estimate of the temperature ends, is accurate and is there wherever it is used", "statement": "The search for the temperature expected at the end of a step ends after at most a hundred passes. The estimate is the old temperature, or between half and twice that and within a thousandth of a zero of the residual. In every zone where it is used it is positive.", "quantifier": "all zones, residuals and behaviours of a bracketing solver", "why_tests_cant": "ranges over all continuous residuals and all sequences of brackets of the solver; an endless loop is not observed by a test that ends", "anchors": ["core/estimate_thetae.c: estimate_Thetae, get_Thetae_est", "core/rad_utils.c: precompute_microphysics"]}
{"id": "C233", "title": "Outputs use up nothing", "statement": "After any history of dumps, restart files and tracer files in a run, the memory and the file-library identifiers in use are what they were before; no output gives back anything twice or anything it did not make.", "quantifier": "all histories of outputs, numbers of zones, packets, tracers and arrays, and states of the memory before", "why_tests_cant": "what one output leaves behind is invisible in the file; it counts after thousands of outputs, and in every configuration differently", "anchors": ["core/io.c: dump, restart_write, dump_tracers, dump_grid, write_array, read_array", "core/util.c: safe_malloc"]}
{"id": "C234", "title": "Heights above the disk", "statement": "For every shell of gas the middle and the spread of the disk are the mean and the standard deviation of the polar angle of the gas, the scale height is finite and not negative, and the height of a zone has the sign of its side of the middle and grows with the angle.", "quantifier": "all densities, volumes, angles and numbers of zones", "why_tests_cant": "ranges over all distributions of gas; a tilted disk is where a zone ends on the wrong side", "anchors": ["script/analysis/zoh.py: get_scale_heights"]}
{"id": "C235", "title": "Averages over radii of the disk", "statement": "The average over a range of radii and azimuth uses exactly the radii in the range, exists, is exact for what is linear in the radius, and lies between the smallest and the largest value.", "quantifier": "all ranges, increasing radii, azimuths and values", "why_tests_cant": "ranges over all real data and spacings; weights turn negative only for spacings tests do not use", "anchors": ["script/analysis/zoh.py: zoHProjector.set_r_range, zoHProjector._integrate_radially"]}
{"id": "C236", "title": "Mass accreted", "statement": "The mass accreted that is reported is the magnitude of the integral over time of the rate in the log: it is the sum over parts of the log, repeated rows do not count, it lies between the smallest and largest rate times the time, and it differs from the integral of a rate that changes by at most L per unit of time by at most L times half the sum of the squares of the time between rows.", "quantifier": "all logs, rates and units", "why_tests_cant": "ranges over all logs and Lipschitz rates", "anchors": ["script/analysis/get_mass_accreted.py: get_m_accreted"]}
{"id": "C237", "title": "Averages over time are over the dumps asked for", "statement": "The table of averages is the mean over exactly the dumps whose index is between the first and the last asked for, both included and counted from the end if negative.", "quantifier": "all numbers of dumps, indices and values", "why_tests_cant": "ranges over all integers; slices of Python take indices before the start without complaint", "anchors": ["script/analysis/average_sadws.py: imin, imax, averages"]}
{"id": "C238", "title": "Dynamical times of tracers", "statement": "For every run, set of tracer files and number of processes, the dynamical time of a tracer is the average over each interval between consecutive dumps once, weighted by its length, of the ratio of density to the magnitude of its rate of change while the temperature is between 1 and 10 GK: it lies between the smallest and the largest of them.", "quantifier": "all histories of densities and temperatures, sets of tracers in each file and numbers of processes", "why_tests_cant": "ranges over all histories and schedules; cancellation needs a density that goes up and down", "anchors": ["script/analysis/get_dynamical_time_time_parallel.py: set_tau_dyn, _tau_dyn_files_worker, compute_tau_dyn"]}
{"id": "C239", "title": "Inner radius of tori for given mass", "statement": "For every spin of magnitude less than one, of either sign, the inner radius proposed for a torus is the given multiple of the radius of the last stable circular orbit in the direction in which the torus turns, and for spins that are not negative that radius is the one in the headers of dumps.", "quantifier": "all spins", "why_tests_cant": "ranges over all real spins; a formula with cube roots and a choice of sign", "anchors": ["script/analysis/torus_id.py: r_isco", "core/coord.c: set_points"]}
{"id": "C240", "title": "Mass of a disk", "statement": "For every density, the mass of the disk is the integral of the density over the volume of the space around the hole where it is more than one percent of the highest, whatever the units.", "quantifier": "all densities, spins, masses and grids outside the horizon", "why_tests_cant": "ranges over all functions of position; a factor that is one at the equator is not seen in thin disks", "anchors": ["script/analysis/torus_id.py: get_tot_mass"]}
{"id": "C241", "title": "Units of a torus are reported", "statement": "Whenever a radius that gives the mass asked for is found, the radii and the units of density and mass are reported, for an ideal gas as for a table, and the unit of mass is that of density times the cube of that of length.", "quantifier": "all masses, spins, targets and kinds of gas", "why_tests_cant": "an error after a long search, in the branch without a table", "anchors": ["script/analysis/torus_id.py: solve_for_rmax_rho_unit_ideal_gas, solve_for_rmax_rho_unit_tabulated"]}
{"id": "C242", "title": "Statistics of the electron fraction", "statement": "For every dump the mean and spread of the electron fraction and of that of equilibrium are those of the zones weighted by their mass, the mean lies between the smallest and the largest value, and the distance between the two is at most the sum of both spreads and the distance of the means.", "quantifier": "all densities, electron fractions, metrics, grids and spacings", "why_tests_cant": "ranges over all fields; weights that alternate from zone to zone are not seen in smooth data", "anchors": ["script/analysis/ye_statistics.py: integrate_3d, YeStatistics.get_from_dump"]}
{"id": "C243", "title": "Electron fraction of weak equilibrium", "statement": "For every density and temperature the electron fraction of equilibrium is in the range of the table: where emission of electron neutrinos and antineutrinos balance within the tolerance if they do, the smallest if electron neutrinos win throughout and the largest if antineutrinos do.", "quantifier": "all tables, densities and temperatures, and every search that keeps the contract of its library", "why_tests_cant": "ranges over all continuous functions; a fallback for what is not a number is taken silently", "anchors": ["script/analysis/ye_equil.py: WeakEquilibriumFinder.find_Ye"]}
{"id": "C244", "title": "Report of performance", "statement": "For every history of a run, the time per step reported is the mean duration of the steps since the run started or was restarted, so it lies between the shortest and the longest, the time of each part is the time spent in it, and the parts together take at most the whole.", "quantifier": "all numbers of steps, durations, and orders of timed parts within a step", "why_tests_cant": "ranges over all histories; nesting of a timer in itself occurs only when no zone can be repaired", "anchors": ["core/timing.c: time_init, timer_start, timer_stop, timers_reset, get_time_per_step, report_performance", "core/main.c: main", "core/fixup.c: fixup, fixup_utoprim"]}
{"id": "C245", "title": "Lines of constant entropy in a table", "statement": "For every table of the equation of state, entropy and electron fraction, the line found has at each density kept a temperature within the table at which the interpolated entropy is the one asked for; the densities kept are those between the ends of the line; every array asked for along the line is given at these densities and temperatures, the array of densities as the densities themselves; and a line is accepted as valid exactly if its temperature does not fall with density.", "quantifier": "all sizes of tables, values, entropies, electron fractions, and root finders that return roots", "why_tests_cant": "arrays are told apart by their length, so the result depends on the numbers of points of the table", "anchors": ["script/analysis/analyze_eos.py: Adiabat, get_iYe, get_lrho_min_max, get_adiabat"]}
{"id": "C246", "title": "Averaging a directory of dumps", "statement": "For every directory and every set of full dumps in it, each dump is averaged over azimuth to a file of its own, and a restart after any interruption averages exactly the dumps not averaged yet.", "quantifier": "all paths of directories, numbers of dumps, and sets of dumps averaged before", "why_tests_cant": "which file is written depends on all digits in the path, and what a restart leaves out on all that was done before", "anchors": ["script/analysis/dir_3d_to_2d.py: avg_dump_dir", "script/analysis/dump_3d_to_2d.py: avg_dump_file, new_dumpname", "script/analysis/hdf5_to_dict.py: get_dumps_reduced, get_dumps_full, load_dump"]}
{"id": "C247", "title": "Radial profiles of a disk and their time average", "statement": "For every grid that goes once around and every field, the profile of a quantity is its mean over the zones between 60 and 120 degrees, a mean weighted by density lies between the smallest and the largest value, and the time average of each is the mean over exactly the dumps not before the time asked for.", "quantifier": "all numbers of zones, volume elements, fields, numbers and times of dumps, times asked for", "why_tests_cant": "a profile that is too small by the same factor everywhere looks right; must hold for all grids and fields", "anchors": ["script/analysis/eht_analysis.py: INT, WAVG, avg_dump"]}
{"id": "C248", "title": "Vertical slices show each zone at its place", "statement": "For every grid that goes once around, a vertical slice shows the zones at the first azimuth on the right and those opposite to them on the left, each once, with its own value, at its own height and distance from the axis, in order along each row.", "quantifier": "all numbers of zones, radii, latitudes, fields", "why_tests_cant": "a picture with some zones out of place looks right; must hold for all sizes of grids", "anchors": ["script/analysis/plot.py: flatten_xz, plot_xz"]}
{"id": "C249", "title": "Tables are downloaded once", "statement": "For every directory and every history of calls, a table is downloaded exactly if neither it nor its compressed file is there, so a table that was downloaded and unpacked stays and is never downloaded again.", "quantifier": "all names of tables, contents of the directory, histories of calls with downloads that succeed or fail", "why_tests_cant": "whether a file is recognised depends on the characters its name ends in", "anchors": ["data/get_stellar_collapse_eos.py: get_current_files, file_is_downloaded, file_is_decompressed, download"]}
{"id": "C250", "title": "Options of the machine and the command of a run", "statement": "For every host, environment and number of processes, the options are those of the first machine file that recognises the host, each replaced by the environment variable of its name where set; a run is refused without a program or a positive integer number of processes, and otherwise the command is the program alone or one that names the number of processes asked for.", "quantifier": "all hosts, lists of machine files, environments, programs and numbers of processes", "why_tests_cant": "a test runs on one machine, whose file is one of many", "anchors": ["script/config.py: HOST_OPTIONS, get_env_name, get_host", "script/bhlight.py: bcall", "script/machine/badger.py: matches_host", "script/machine/badger_node.py: matches_host"]}
{"id": "C251", "title": "Scaling builds keep the work fixed", "statement": "For every scale given, the build for weak scaling has two processes for each node with the same number of zones and packets each, the one for strong scaling has one process for each node and the same zones in all, processes divide the zones of each direction, and a scale that is not a power of two up to 64 is refused with an error that says so.", "quantifier": "all integers as the scale, both scripts", "why_tests_cant": "the scripts accept any integer, and a measurement of scaling is compared across builds that never run together", "anchors": ["prob/torus_cbc/build_weak_scaling.py: SCALE, N1TOT to N3CPU", "prob/torus_cbc/build_strong_scaling.py: SCALE, N1CPU to N3CPU"]}
{"id": "C252", "title": "Movies restarted from cached frames", "statement": "For every history of runs that end at any point and draw frames in any order into one cache, a run that comes to its end makes the movie of exactly one frame for each dump, drawn from that dump with the settings of that run, and frames in the cache are not drawn again.", "quantifier": "all histories of runs, settings, lists of dumps, orders of frames and points at which runs end", "why_tests_cant": "runs end while frames are being written by several processes", "anchors": ["script/analysis/movie.py: make_frame, pairs, frames_to_do, tmpdir", "script/util.py: safe_remove", "script/analysis/hdf5_to_dict.py: get_dumps_full"]}
{"id": "C253", "title": "Mass of a wind in bins", "statement": "For every set of tracers and every number of bins, each tracer in the range of angles and times is counted in exactly one bin, so that the masses of all bins add up to that of the tracers, the mass accumulated ends with that of all bins, rates times widths are masses, and a mean electron fraction lies between those of the tracers of its bin.", "quantifier": "all sets of tracers, numbers of bins in angle and time", "why_tests_cant": "tracers on the edges of bins depend on the times at which they were written", "anchors": ["script/analysis/plot_tracers.py: spacetime_bins, get_mass_mdot"]}
{"id": "C254", "title": "What the tests of waves measure", "statement": "For every run, the tests of linear waves compare with the wave the problem starts from, measure the mean absolute difference over all zones, and find for errors that are a power of the resolution exactly that power.", "quantifier": "all runs, directions, resolutions and sizes of errors, in one, two and three dimensions", "why_tests_cant": "it is about the tests themselves", "anchors": ["test/mhdmodes1d.py: dvar, L1, powerfits", "test/mhdmodes2d.py: L1, powerfits", "test/mhdmodes2d_mpi.py: L1", "test/mhdmodes3d.py: L1", "prob/mhdmodes1d/problem.c: init_prob"]}
{"id": "C255", "title": "Mass of a wind for each solid angle", "statement": "For every set of tracers and every range of angles, a histogram of mass for each solid angle has the tracers that left at those angles on either side of the plane, and its sum times the solid angle they are taken from is their mass.", "quantifier": "all sets of tracers, ranges of angles and units", "why_tests_cant": "a factor in a normalisation shows in no single histogram", "anchors": ["script/analysis/plot_tracers.py: filter_angle, get_intersection, plot_ye_th_hist"]}
