# Formal model of nubhlight: design

The code is read as text from `/repo` (pinned commit); it is never built or run.
The model and proofs are in `lean/Verif`, one topic per group of files:

* `Verif/Model/<Topic>.lean` – executable (or, where `sqrt`/`exp` is needed, real-number) definitions
  that follow the C code function by function.  Every definition cites file and lines and names the
  simplifications made.
* `Verif/Lemmas/<Topic>.lean` – helper lemmas.
* `Verif/Props/<Topic>.lean` – the property theorems, each with a small specification stated
  independently of the model helpers, and an `example` showing that its hypotheses are met.

`properties.jsonl` lists the properties; `MANIFEST.json` maps each to its theorems and status.

## Trusted base

* Lean 4.33.0's kernel.  No axioms are added; the theorems depend on at most `propext`,
  `Classical.choice` and `Quot.sound` (`Verif/Audit.lean` fails to build if any theorem of the `Nubhlight` namespace uses another axiom).
  No `sorry`, `admit`, `native_decide` or `bv_decide`.
* The faithfulness of the hand-written model.  Nothing is generated from the C sources.
* Modelling conventions:
  - **Floating point** is modelled by an ordered field (usually any linearly ordered field, so that the
    definitions run on `ℚ`; `ℝ` when `sqrt`, `exp`, `sin` … are needed).  Rounding, overflow, NaN and
    infinities are not modelled unless a definition says so.
  - **Integers** are unbounded `ℕ`/`ℤ`; C `int` overflow is not modelled.
  - **Pointers and lists**: a singly linked list is a Lean `List` (acyclic, unshared); a particle's
    identity is its value in the list.  For the list primitives themselves (C37) an explicit heap of
    cells with `next` pointers is modelled and related to `List`.
  - **Arrays** are functions on indices; where a property is about bounds, an access is an
    `Option`/explicit range check, and out-of-range is a distinct outcome.
  - **Undefined behaviour** (out-of-range read, use of an uninitialised variable, division of ints by
    zero) and `exit()` are distinct outcomes in those models where they can occur.
  - **OpenMP**: the loops of the fluid update, the four-force, constrained transport and the tallies of absorption are modelled with every
    schedule of their accesses (`Model/Threads.lean`, sequentially consistent memory, C124, C125); other loops over zones are
    modelled sequentially.
  - **MPI** is modelled at message level: a message sent to a rank is received unaltered by it. Interleavings of ranks, buffering and
    deadlock are modelled for the boundary update, the repair and the fluid step (`Model/Messages.lean`, `Model/MessageRun.lean`, C130 to C132); elsewhere an
    exchange is one action of all ranks.
  - **HDF5 / file system**: a file is absent, partial, or complete; operations take effect in program order.
  - **Random numbers** are parameters: theorems quantify over all draws.

## Plan per property

| Id | What is modelled | How proved |
|----|------------------|-----------|
| C01 | `flux_ct`, magnetic part of `advance`, `flux_ct_divb` on `ℤ³` index functions | algebra at one corner, induction over steps |
| C02 | zone update of `advance` | telescoping sums by induction over grid size |
| C03 | `lr_to_flux`, wave-speed selection, `ndt_min` minimum | algebra; fold invariant |
| C04 | `slope_lim`, `linear_mc`, `reconstruct_lr_lin` | case analysis over ordered field |
| C05 | `weno` | algebra over ordered field |
| C06 | `mp5`, `Median`, `MINMOD` | case analysis |
| C07 | `para`, `ppm` limiting | case analysis |
| C08 | time-step part of `step`, loop of `main` | induction over history |
| C09 | harmonic combination in `fluxcalc` | ordered-field inequality |
| C10–C12 | `ucon_calc`, `mhd_gamma_calc`, `lower`, `raise`, `bcon_calc`, `primtoflux`, `ucon_to_utcon` | tensor algebra with explicit 4-component sums, over ℝ |
| C13 | `mhd_calc` | tensor algebra |
| C14 | `err_eqn`, `gamma_func`, `Wp_func` | algebra over ℝ |
| C15 | control flow of `Utoprim` with the numeric kernels as parameters | exhaustive path analysis, fuel induction |
| C16 | `fixup1zone` | case analysis, `sqrt` algebra |
| C17 | `fixup_utoprim` scan | convexity, induction over the scan and outer loop |
| C18, C20 | `bound_prim` index maps | integer arithmetic; negation for the X3-right outflow case |
| C19 | `inflow_check`, `fix_flux` | algebra over ℝ |
| C21, C22 | `root_bisect`, `root_secant`, `find_root` | loop invariants, termination by halving, IVT; negation with a concrete function |
| C23, C24 | `util.c` helpers | induction over arrays; out-of-range outcome explicit; negation at the upper end |
| C25 | `MINOR`, `adjoint`, `determinant`, `invert` | `ring` |
| C26 | `bl_gcov_func`, `bl_gcon_func`, `set_gcov`, `jac_harm_to_bl`, `jac_bl_to_cart` | `field_simp`/`ring` with `sin²+cos²=1`, `HasDerivAt`; the backward Jacobians carry `+SMALL`, so exact inversion is refuted and bounded |
| C27 | `conn_func` | algebra over any metric |
| C28 | `pp`, `antisym`, `Fcon_calc` | finite table by kernel computation for the symbol; algebra for the tensor |
| C29 | `tetrads.c` | algebra with a bilinear form |
| C30, C55 | `coord`, `Xtoijk`, decomposition | floor/Int arithmetic |
| C31, C32 | `eos_gamma.c`, `eos_poly.c`, dispatch | real algebra; undefined outcome |
| C33–C35 | table lookup of `eos_stellar_collapse.c` | index arithmetic, convexity; negations for the two index defects |
| C36, C83, C84 | `electrons.c` | real algebra against energies and temperatures; Bessel functions are a parameter |
| C37–C40 | particle lists, boundary pass, exchange | multiset invariants by induction; the exchange is three staged shifts on the rank lattice; negations for double counting, corners and detours |
| C41–C43 | geodesic push control flow and integrator | induction over sub-steps; negation for the last attempt |
| C44–C49 | emission, absorption, scattering bookkeeping | algebra, fold invariants; negations for failure paths |
| C50 | resolution control | case analysis, induction over history |
| C85 | choice of interaction | case analysis on the channel conditions; negation |
| C51–C54, C86–C89 | oscillation logic, angle bins, dump of moments | finite sums, probability algebra; negation for accumulated moments |
| C56–C58 | halo exchange, `sync_radG`, prefix sums | sums over finite index sets |
| C59–C61, C90 | restart protocol as a state machine with crash points; particle buffers | invariants over histories; negation for crash safety |
| C62–C66, C91 | spectrum reduction, binning, output cadence, resets, parameter parser | invariants; negations |
| C67–C69, C92 | tracer interpolation, sampling, output, rates | algebra, list lemmas; negations |
| C70–C73, C93–C98 | scattering: Compton sampling, boosts, neutrino cross sections, table (lookup, parallel creation, reuse of files), sampling of the scatterer, new direction | real analysis and algebra; invariants over schedules and histories; negations |
| C99 | the stored three-point history across creation, push, scattering, outputs | invariant over the operations of a step; negation for packets scattered in the step |
| C100–C102, C110 | the log line: `diag`, `diag_flux` over slabs and blocks | sums over finite index sets, search invariant; negations |
| C111–C113 | `Bnu_inv`, `alpha_inv_abs`, emission processes of `emissivity.c` (photon and flat neutrino), totals | Taylor bounds for `exp`, improper integrals, monotonicity; negations |
| C114–C116 | sampling of frequency, direction and number in `make_superphotons.c` | bounds, telescoping, interval integrals; negation |
| C117, C118 | `opac_emis_hdf.c`: lookup and file layout; the writer in `opac_emis_neutrino.c` | floor arithmetic, convexity, mixed-radix injectivity; negations |
| C119, C120 | `get_fluid_zone`, `get_fluid_nu`, `get_bk_angle` | linear algebra over a Lorentzian metric: Cauchy–Schwarz on the slice and in the rest frame |
| C121, C122 | which zones have current data; cooling time and its minimum | case analysis over builds, induction over histories and lists; negations |
| C123 | recovery flags through any number of repairs on all ranks | induction over the list of repairs, translation of the neighbourhood mean; negation |
| C124 | loads, stores and indivisible additions of loop iterations, any interleaving; loops of `advance`, `apply_rad_force`, `flux_ct` | invariant over the schedule: memory = initial + what each iteration changes alone; separation of addresses |
| C125 | accesses of absorbed packets | invariant: memory + what is left to add is constant; negation by a crossing schedule |
| C126 | `FluidStep` (one whole fluid step on all ranks, composed from `Bounds`, `Inflow`, `FluxCT`, `Conserve`, `FixupUtoprim`) | refinement: every rank is a window of one undivided grid (`FluidWindow`: fluxes, `fix_flux`, constrained transport and update agree on the zones a rank owns), boundary pass through C18, speeds by order; induction over the steps. Solver, recovery and floors are arbitrary functions of the global index. Partial: no failed recovery, no upper azimuthal outflow; full statement refuted |
| C127 | `FluidStep` with `FluxCT` | `advance_whole` (pass on all ranks = pass on undivided grid) and the corner identity of `FluxCT`; floors, repair and boundary pass keep the field of active zones; induction over steps. No assumption on the boundary choice or on recoveries |
| C128 | `FluidStep` with `Conserve` | sums over ranks reindexed to sums over the grid (`sum_blocks`), telescoping (`Conserve.C02_budget`), periodicity of raw fluxes and electromotive forces (`flux_periodic`); induction over steps |
| C129 | `FluidStep` | the two passes composed; Taylor form for a linear rate operator; example: upwind advection on a ring of two ranks |
| C130 | ranks running lists of computations, `MPI_Sendrecv` and collective operations, any interleaving and buffering; `bound_prim` as such a program | invariant on channels by induction over actions; least advanced rank can always act; measure; refinement to `Bounds.boundPrim` |
| C131 | `step` without radiation as such a program | all instructions correspond; negation by a concrete stuck state |
| C132 | the programs of C131 with the physics of C126 (`Model/MessageRun.lean`) | refinement of `FluidStep.run` instruction by instruction, then C126 |
| C133 | restart files of the fluid (`Model/FluidRestart.lean`) on top of the fluid step on all ranks | blocks of ranks are disjoint and cover the grid (induction over the order of writing), then the relation of C126 carried through sessions; negation by a witness |
| C134 | emission, worklist of interactions, reduction over ghost zones, application and reset of the force on all ranks (`Model/RadStep.lean`, from `Emission`, `Interact`, `RadSync`) | account of one packet carried through both loops and the worklist by induction, then copies of active zones partition the zones next to a rank (from C57); negations by witnesses |
| C135 | `sync_mpi_photons` as run by one rank with linked lists, counts and tag-0 messages (`Model/PhotonMessages.lean`), on the interleaving semantics of C130 | send lists, counts and kept list tied to the all-at-once exchange of C39 direction by direction; C130 transfers the result to all schedules |
| C136 | `sync_radG`, `sync_Jrad`, `sync_radtype_vec` as run by one rank with receive buffer, tags 0-5 and `memset` (`Model/SumMessages.lean`), on the interleaving semantics of C130 | buffer after both exchanges of a direction is `RadSync.received`; invariant: buffer empty where the reduction reads; induction over calls; C57 for deposits |
| C137 | `main` from the loop on and all it calls that communicates or decides: branches, loops and exits of ranks (`Model/Control.lean`), every message, barrier, reduction and file of a pass in order (`Model/MainLoop.lean`) | ranks run in step agree by a logic of triples over the code; every schedule of a program whose ranks agree is a reordering of the run in step (C130 on the unrolled rounds); refinement to `TimeLoop.run`; loop-free passes end, C08 bounds their number |
| C138 | `push_tracers`, `tracer_rhs`, `push_X_K` for tracers, `set_tracer` on the interpolation of C67 and the fluid kernels of C10; runs of steps (`Model/TracerPush.lean`) | calculus: defect of the midpoint rule along a smooth path by mean value inequalities, discrete Gronwall by induction over the steps; negation by gas accelerated uniformly |
| C139 | `prune_tracers` on memory with links; marks of zones over runs; counters of a step (`Model/TracerPush.lean`) | refinement to the traversal of C38; induction over calls and steps; counting over ranks |
| C140 | `EOS_SC_fill`, `EOS_SC_get_u_of_T`, `EOS_SC_pressure_rho0_w`, `EOS_SC_u_press` with their clamps and `find_lT` (`Model/EosInvert.lean`) on the tables of C33, C34 and the root finder of C21, C22 | slopes of the interpolated table by telescoping over cells; residual of each exit of the root finder; intermediate value theorem |
| C141 | `write_array`, `read_array` with the hyperslabs of every array, the packing loops of `dump_grid` (`Model/ArrayIO.lean`); HDF5 at its specification | row-major positions are injective; owner and local index by division with remainder, per dimension, lifted to arrays of any rank by induction |
| C142, C143 | the initial field of the torus problems: corner potential, differencing, normalisation, net flux (`Model/TorusField.lean`), every rank with its own arrays; the divergence is that of `Model/FluxCT.lean`, field strength that of `Model/Fluid.lean` | the differencing is the discrete curl adjoint to the divergence; zones of ranks mapped to the whole grid; maxima over ranks; b² is quadratic in B |
| C144, C145 | the initial gas of tori and of spherical inflow: enthalpy, velocity, angular momentum, conversion of velocities (`Model/TorusInit.lean`) | the Boyer-Lindquist metric is the Kerr-Schild one under the code's matrix; the time component is the only future root; derivatives of the potential along curves against derivatives of the metric |
| C146 | curves of constant entropy and gas on them (`Model/EntropyCurve.lean`) | invariant of the loop over densities; each search through C22/C34; interpolation on the curve in closed form; a table linear in the logarithms for the negative results |
| C147-C151 | Compton cross sections, their thermal averages, choice of scatterers, numbers of scatterers (`Model/Compton.lean`) | integration of the differential cross section, change of variable to the cosine for monotonicity, bounds on the series; sums over nodes; induction over draws; linearity of boosts |
| C152 | radiation in a step as programs of ranks (`Model/RadMessages.lean`): interactions, `sync_mpi_photons`, `sync_radG`, `apply_rad_force`; packets of C39, C40, C135 may have any contents | programs embedded in a larger memory, confluence of schedules (C130), sums over ranks, induction over steps |
| C153 | `scatter_superphoton` (`Model/ScatterFrame.lean`) with frames of C29; what happens in the frame is a function | roots of the null condition, products of vectors in one light cone; a Kerr-Schild metric with rational components as witness |
| C154, C155 | `set_units`, `get_Thetae`, electrons in `get_fluid_zone`, conversions of `interact` and `get_fluid_nu` (`Model/Units.lean`) | real algebra with the metric of C119, C120 |
| C156, C157 | radii and radial spacing of `set_points` (`Model/RadialGrid.lean`), with `coord` of `Model/Decomp.lean` | logarithms; Cardano's formula as a cubic for `z1`, then the quartic of the orbit |
| C158 | `get_Tfunc`, `get_T` (as an inductive relation: the loop may not end), `get_prim_bondi`, `init_prob` of prob/bondi (`Model/Bondi.lean`) | invariants of the secant iteration by induction over its steps; real algebra with the metric of C119, C144 |
| C159 | `set_rparm`, `write_rparm`, the run-time part of `build`, the names of `set_core_params` (`Model/Config.lean`), with the reader of C66 | invariant of the dictionary by induction over calls, of the file by induction over what is written; the two lists of names compared for every configuration |
| C160 | `%e`, `%g`, `%d` as rounding to significant digits (`Model/Config.lean`) | logarithms of rational numbers |
| C161 | `change_rparm` (`Model/Config.lean`) | first occurrence of a word by induction; states of the reader that agree but for one parameter |
| C162 | `median_filter`, `fill_mdn_buffer`, `find_median`, `compare_doubles` (`Model/TableSmooth.lean`) | invariant of the output table by induction over the cells; counting over the box |
| C163, C164 | wrappers of `eos.c` with `POLYTROPE_FALLBACK`, `EOS_SC_get_polytrope`, `EOS_SC_rho_floor`, `EOS_SC_gamma`, the sound speed stored (`Model/TableFallback.lean`) | case analysis, limits, monotonicity of interpolation; negations |
| C165 | `EOS_SC_mass_fractions`, `EOS_SC_avg_ions` (`Model/Composition.lean`) | linearity of interpolation; negation |
| C166 | `jnu_synch`, `Jnu_synch`, `init_emiss_tables`, `F_eval_synch`, `K2_eval_synch` and their interpolations (`Model/SynchTable.lean`; the Bessel function is a parameter) | integrals over angle by substitution, interpolation in logarithms; negations |
| C167 | `xdmf_output.c`, names and shapes of the arrays `dump` and `dump_grid` write (`Model/Xdmf.lean`) | case analysis over all items for symbolic builds; negations |
| C168, C169 | `get_opacity_emissivity`, regridding in `init_opacity_table`, `opac_emis` (`Model/Burrows.lean`; reading files and sending tables left out) | floor and truncation, interpolation; negations |
| C170 | passive scalars in `primtoflux`, `lr_to_flux`, `fix_flux`, `advance`, `Utoprim`, `fixup_passive` and the fix-ups of table builds (`Model/Passive.lean`; gas, boundaries that copy and the result of floors on other variables are arbitrary inputs) | induction over steps and over the variables; negation |
| C171 | `step` (times and steps only) and the loop of `main`, every operation rounded (`Model/FloatTime.lean`, `Model/Rounding.lean`) | induction over steps, Sterbenz's lemma; negation by computed rounding |
| C172 | `Xtoijk`, `coord`, bounds of ranks, every operation rounded (`Model/FloatZone.lean`) | error bounds; negation by computed rounding |
| C173, C174 | `accumulate_tracers.py`, `TracerData`, `load_tracers`, `prune_file`, `tracers_data_to_traces.py` on lists of records (`Model/TracerFiles.lean`; unreadable files left out) | induction over files; stability of sorting; negation |
| C175 | conditions of `prune_tracers.py` (`Model/TracerPrune.lean`) | trigonometry; negation |
| C176 | the magnetic update and `flux_ct_divb` with a rounding after every operation (`Model/FloatCT.lean`) | error bounds from rounding to nearest, telescoping of C01, induction over steps; witness that it moves |
| C177 | `init_fluid_restart` and the datasets written, on the hyperslabs of C141 (`Model/StartFluid.lean`) | reread theorem of C141; name not among the datasets; counterexample |
| C178, C181 | `average_dumps.py`, `interp_ghosts` (`Model/DumpAverage.lean`) | induction over dumps and arrays; induction over boundaries; counterexamples |
| C179, C180 | `avg_phi`, `get_padded_metric`, `sadw.py`, with Simpson's rule as scipy has it (`Model/DumpAverage.lean`) | linearity, positivity and bounds of the rule by induction over points; counterexamples |
| C182, C183 | `init_prob` of the plane wave problems with the numbers of their modes, periodic ghost zones, `flux_ct_divb` (`Model/PlaneWave.lean`) | divergence of a sampled wave by addition theorems; strict concavity of the sine for the converse; derivatives and bounds of pi for the linear equations |
| C184, C185 | `init_prob` of the advection and entropy wave problems (`Model/Advection.lean`) | algebra of roots; counterexamples |
| C186, C187 | `make_tabulated_gamma.py` and the arrays that `EOS_SC_init` derives from its file, as input of the models of C33, C34, C140, C162 and C163 (`Model/GammaTable.lean`; entropy left out) | the logarithms are affine, so the interpolation is exact; the median of a table that rises along one direction; counterexample for the bounds |
| C188-C190 | the columns `diag` prints and those `load_diag` takes, its treatment of restarts, the printed time (`Model/LogRead.lean`; other columns are not rounded) | all configurations by cases; rows by induction on the list; counterexamples |
| C191-C193 | `get_state`, the transformed vectors and `get_stresses` of the analysis, for one zone (`Model/DumpVectors.lean`; double instead of single precision) | equality with the models of C10-C13; derivatives along paths; covectors specified by their values on vectors; counterexamples |
| C194 | datasets written by `dump` and `dump_grid`, datasets asked for by `load_dump` (`Model/DumpRead.lean`; contents left out) | all configurations by evaluation in the kernel (the domain is finite, and covered) |
| C195 | `L1_norm` and the loop over the tests of test_all.py (`Model/TestVerdict.lean`; numbers exact or not finite) | the sum of the loop characterised by a relation between points and deviations; induction over the tests; counterexamples |
| C196 | the average of the lepton source of emission, and the reference of test/yedecay.py (`Model/YeDecay.lean`; exact integral, no fluctuations) | integrals in closed form, derivative of the reference, uniqueness for the linear equation; counterexample |
| C197, C198 | packets made by four problems, formulas of their tests (`Model/StartPackets.lean`) | algebra, rounding of counts, intervals of random numbers, integrals; counterexamples |
| C199 | the reference solution of test/sod.py and the start of prob/sod (`Model/SodReference.lean`; real numbers, root taken as exact) | conservation laws as derivatives, jump conditions by algebra, unique root by monotonicity and the intermediate value theorem |
| C200 | how build files choose kind and number of types, mean energy of packets made (`Model/RadKinds.lean`) | algebra over the number of types; counterexample |
| C201, C202 | starts of prob/brem and prob/thermalization, equations of the references (`Model/ThermalTests.lean`; real numbers) | algebra, bounds in numbers, derivative of the total energy; counterexample |
| C203 | restart_flatten_particles.py and the reader of packets (`Model/FlattenRestart.lean`; offsets exact) | order of the alphabet, sums of counts as offsets; converse for different packets |
| C204 | checks and maxima of prob/table with results that may be infinite or not numbers, verdict of test_all.py (`Model/TableTest.lean`) | maxima over zones and processes characterised by bounds; counterexamples |
| C205 | constant of the packet weights, its tuning and restarts (`Model/ResumedWeights.lean`; emissivity and tuning factor of each step given) | induction over histories of steps and stops; ratio of the weights; counterexample |
| C206 | jacobians.py and check_transformation_matrices.py (`Model/TransformCheck.lean`; real numbers) | equal to the matrices of C26 and the metric of C24; inverse matrices; counterexample far from the hole |
| C207 | drift-frame branch of `fixup1zone` (`Model/Fixup.lean`, model of C16) | algebra of the velocity worked out, C11 for the time component, inner products with the normal; counterexample with the program's floors |
| C208 | normal-observer branch of `fixup1zone` (`Model/Fixup.lean`, model of C16) | conserved variables of material at rest worked out in any geometry; mass balance; counterexample an exact rational state with the program's floors |
| C209 | `get_scale`, `EOS_set_floors` and the floors of the three equations of state (`Model/Floors.lean`); the lookup of the least energy is a parameter | monotonicity of powers and maxima, continuity of the broken power law; counterexample a table of bound cold matter |
| C210 | `luminosities.py` and the frequencies of `extract_lnu.py` and the header (`Model/Luminosity.lean`) on the array of `Model/Spectrum.lean` | sums of trapezoids on equal steps, C63 for the energy of packets; counterexample one packet |
| C211 | `get_mass_Ye_from_tracers.py` for one simulation, without printing (`Model/Outflow.lean`) | membership of filters, sums over disjoint filters, weighted means; counterexample one tracer |
| C212, C213 | `init_superphoton_resolution` (`Model/TuneStart.lean`) before the control of `Model/Tune.lean` | induction over histories of steps; counterexamples a run around a black hole and three steps with many scatterings |
| C214 | the light-crossing times of `set_grid` (`Model/LightStep.lean`) with the time loop and the push | Cauchy-Schwarz in the slice for the speed, an explicit ray that reaches it, folds of minima, induction over steps |
| C215 | `struct of_photon` by the ABI, the HDF5 and MPI types built from it, byte by byte (`Model/PacketRecord.lean`) | induction over lists of copies that write no common byte; layouts by induction over declarations |
| C216 | the reads of `EOS_SC_init` from a file as a map of datasets, with the status that each read overwrites (`Model/TableLoad.lean`) | induction over the list of reads; indices of row-major lists by induction |
| C217 | the three compile-time switches of the zero of the energy as arguments (`Model/EnergyShift.lean`) | algebra of the shifts; minimum over the table by induction |
| C218 | `init_io` on character buffers of 2048 characters in which a write beyond the end is an outcome of its own; the shell splits at blanks (`Model/OutputDirs.lean`) | what a buffer holds after each string function; exact bound on the length; splitting undoes joining |
| C219 | the recovery of `Model/Utoprim.lean` and the fluid steps of `Model/FluidStep.lean` | algebra of the inversion at an arbitrary value of W'; invariant of the secant loop; sums over zones, induction over steps |
| C220 | the update of a conserved variable with a rounding after every operation (`Model/FloatConserve.lean`) | error of each operation bounded, sums over zones, telescoping of C02, induction over steps |
| C221 | the list of variables that stays in memory, tracer files as written and as reduced (`Model/TracerVars.lean`) | invariant of the list over all files read; loop over a directory by induction; counterexamples |
| C222, C223 | the scripts that collect the output of the nuclear network (`Model/SkyNet.lean`) | sums over files and processes by induction; shape of the table; counterexamples |
| C224 | the script that splits a file of tracers (`Model/TracerPartition.lean`) | permutations and filters of lists |
| C225 | the extension of traces beyond the end of a run (`Model/PrismExtrap.lean`) | induction over the points for the interpolation; algebra of real powers; continuity by Mathlib |
| C226 | the smoothing of signals (`Model/PrismSmooth.lean`) | slices of lists against an independent reflected average; sums |
| C227–C229 | the choice of the part of a trace, the columns written and the conversion of many files (`Model/PrismConvert.lean`) | decision logic; induction over schedules; counterexamples |
| C230 | the lookup of cross sections, every operation rounded (`Model/FloatTable.lean`); a correctly rounded `log10` is a hypothesis, shown to exist | error analysis on one axis; bounds of real logarithms; counterexample at the largest double |
| C231, C232 | the estimate of the temperature at the end of a step (`Model/EstimateThetae.lean`); GSL's solver is any sequence of brackets, the emissivity, the depths and the equation of state are functions of the temperature | sums over packets; intermediate values; induction over the passes; counterexamples |
| C233 | the lives of buffers and HDF5 identifiers in the outputs (`Model/Resources.lean`): programs that make and give back over a heap of numbered things; what is written is not modelled here | frame property of the programs; induction over blocks and histories; counterexamples |
| C234-C237 | heights of the disk, averages over radius and time, mass accreted (`Model/DiskProfile.lean`), real arithmetic; the interpolation between angles and the tables of pressure and sound speed are not modelled | inequality of Bhatia and Davis for the spread; induction over the points of Simpson's rule; integrals of Lipschitz functions; counterexamples |
| C238 | dynamical times of tracers (`Model/DynTime.lean`), real arithmetic; all tracers of a file have one time | the two halves of the dumps are a permutation; induction over dumps and chunks; counterexample |
| C239-C241 | radii, mass and units of tori for given mass (`Model/TorusId.lean`), real arithmetic; the search for the radius and the weights of Simpson's rule are parameters | the quartic of the orbit with the other sign; the determinant of the metric of space; evaluation of names; counterexamples |
| C242, C243 | statistics of the electron fraction and weak equilibrium (`Model/YeStats.lean`), real arithmetic; `brentq` by its contract, tables only as a difference of logarithms | integrals as positive linear forms, inequality of Cauchy and Schwarz by the discriminant; intermediate values; counterexamples |
| C244 | timers and the report of performance (`Model/Timers.lean`), real clock; the log reads the timers before a step ends, which is not modelled | induction over events and steps; counterexample |
| C245 | lines of constant entropy (`Model/Adiabat.lean`), ordered fields, exact roots from any finder meeting `RootSpec`; `hm1bc` and `map_disk_edge` (splines) are not modelled | list induction over the points kept; counterexamples |
| C246 | names of averages and restart of the averaging of a directory (`Model/DirAverage.lean`), paths as lists of characters | induction over the characters of paths; counterexamples |
| C247 | profiles, weighted means and time average (`Model/EhtProfiles.lean`), real arithmetic; the fluxes and the output file are not modelled | algebra of finite sums; induction over dumps; counterexample |
| C248 | vertical slices (`Model/SlicePlot.lean`), real arithmetic, at least three zones in azimuth; mirrored and scaled axes are not modelled | case analysis of indices, trigonometry; counterexample |
| C249 | downloading tables (`Model/TableFetch.lean`), names as lists of characters; wget and bzip2 only by the files they leave | list lemmas, induction over histories; counterexamples |
| C250 | choice of machine file and command of a run (`Model/Host.lean`), dictionaries as functions; files that raise other errors left out | induction over the list of files and of options; counterexamples |
| C251 | scaling builds (`Model/Scaling.lean`), from the scale to zones and processes | case analysis over all integers; counterexample |
| C252 | cached frames of movies (`Model/MovieCache.lean`), with any end of a run and any order of frames; encoder not modelled | invariant by induction over histories of runs; counterexamples |
| C253 | masses of a wind in bins (`Model/WindBins.lean`), over any ordered field; angles are given | induction over tracers, sums exchanged; counterexample |
| C254 | errors and fits of the tests of waves (`Model/WaveTests.lean`), over the reals; np.polyfit taken as least squares | induction over zones and lists; counterexample |
| C255 | histograms of mass for each solid angle (`Model/SolidAngle.lean`), over the reals, by the sum of their weights | list lemmas and integrals of the cosine; counterexample |
| C103, C105, C106, C108 | diagnostics from the list of packets | fold invariants, invariants over histories; negations |
| C104, C107, C109 | seeds, the log file over restarts, `fail` | arithmetic, sublists of the trace, recursion without end |
| C74 | stencil width of `reconstruct` | dependence on three ghost zones |
| C75 | `mhd_vchar` | roots of the dispersion relation |
| C76 | `Utoprim` soundness | algebra at an exact root; negation for the ignored flag |
| C77 | adiabat lookup through `interp_1d` | index arithmetic; negation at an interior node |
| C79 | `current_calc` | stale work arrays as explicit unknowns; telescoping over periodic grids |
| C81, C82 | stored ranges, `EOS_SC_get_minu` and its callers | ordered-field inequalities, negation for the unit defect |
| C80 | `source` with `conn_func` | tensor algebra against the textbook form |
| C78 | `th_of_X`, `bl_coord`, `cart_coord`, `cart_to_sph` | positive derivative, intermediate value theorem, `Complex.arg` |

## Where the code and a stated property disagree

Each entry is a theorem about the model with a concrete witness; the property keeps its full statement and is `partial`
(or, where the note says so, the theorem documents a limit of a proved property).

| Property | Disagreement | Theorem |
|---|---|---|
| C18 | outflow at the upper azimuthal face copies the first active zone | `C18_upper_azimuthal_outflow_false` |
| C19 | a normal velocity with square below 1e-13 can keep an inflow | `C19_tiny_inflow` |
| C21 | bisection can succeed when both ends lie on the same side of the target | `C21_same_sign_may_succeed` |
| C22 | the secant result is not checked against the interval | `C22_secant_leaves_interval`, `C22_full_false` |
| C24 | a query exactly at the upper end reads past the table | `C24_upper_end_out_of_table`, `C24_full_false` |
| C26 | `+SMALL` in the backward Jacobians | `C26_full_false` |
| C55 | sizes not divisible by the processor grid are not rejected | `C55_indivisible` |
| C76 | the out-of-domain flag is ignored | `C76_flag_ignored` |
| C77 | inclusive upper index used as exclusive | `C77_interior_node_wrong`, `C77_full_false` |
| C29 | tetrad construction divides by zero for some magnetic fields; null renormalisation fails where `g_00 >= 0` | `C29_degenerate`, `C29_null_false` |
| C32 | polytropic dispatch leaves the adiabatic constant uninitialised and exits in the pressure inversion; sound speed can exceed light | `C32_full_false`, `C32_sound_superluminal` |
| C33 | a density exactly at the upper table edge reads outside the table | `C33_upper_edge_out_of_table`, `C33_full_false` |
| C34 | two-dimensional bounds are read from the wrong neighbours (index macro without parentheses) | `C34_full_false` |
| C35 | clamps exchange values within 1e-12 of the upper edge | `C35_full_false` |
| C38 | a recorded particle also counts as lost; the periodic shift is applied once | `C38_recorded_removed`, `C38_wrap_once` |
| C39 | a particle leaving through two faces and across a periodic edge in the third direction goes to the wrong rank | `C39_corner_wrong`, `C39_full_false` |
| C40 | beyond a periodic edge one round more can be needed | `C40_full_false` |
| C42 | the last subdivision level is computed and then reported as failure whatever its quality | `C42_full_false` |
| C43 | times before the oldest stored state are extrapolated; a packet created in the step has zeros for history | `C43_full_false`, `C43_window`, `C43_unset_history` |
| C44 | one of an emitted pair can be killed while the other stays; the lepton source has an extra factor u^0 | `C44_pair_false`, `C44_lepton_false` |
| C45 | recorded emission time is half a step after the time coordinate | `C45_full_false` |
| C46 | lepton source has an extra factor u^0 | `C46_lepton_false` |
| C47 | a failed scattering or push loses the packet's weight | `C47_full_false` |
| C48 | after the maximum number of interactions the same packet is taken up again | `C48_full_false` |
| C49 | raising a bias to one can exceed the bound on the expected number | `C49_full_false` |
| C50 | in the black-hole metric the scattering resolution is tuned before its time | `C50_full_false` |
| C52 | conservation is not exact, and fails with the accumulated moments | `C52_full_false`, `C52_stale_false` |
| C53 | the angular moments are never reset | `C53_full_false`, `C53_spurious_conversion` |
| C85 | scattering requires every channel's free path to end in the step | `C85_full_false` |
| C87 | index typo in the length of the wave vector | `C87_full_false` |
| C88 | writing a dump adds to the angular moments | `C88_full_false` |
| C89 | second direction of the dumped moments is written with the wrong stride | `C89_full_false` |
| C59 | the restart pointer is rewritten before the file it names exists | `C59_crash`, `C59_full_false` |
| C61 | tracking and conversion flags are not stored; a packet of weight at most SMALL overruns the buffer | `C61_full_false`, `C61_overflow` |
| C90 | per-rank resolution counts are replaced by those of rank 0 | `C90_full_false` |
| C63 | packets leaving at the upper edge in `X2`, at an azimuth a bin or more below zero, or with positive `K_0` are recorded outside the array | `C63_pole`, `C63_negative_azimuth`, `C63_branch_cut`, `C63_full_false` |
| C65 | the reset of the integrated four-force clears only the first `RAD_NUM_TYPES * N123G` words: half or less of the zones | `C65_stale_words`, `C65_full_false` |
| C66 | a name in the file sets the first registered name that begins with it, duplicates hide missing ones, types are not checked | `C66_abbreviation`, `C66_duplicate_hides_missing`, `C66_type_unchecked`, `C66_full_false` |
| C68 | tracer identifiers of different ranks collide when marked zones are unevenly distributed | `C68_collision`, `C68_full_false` |
| C69 | the `x`, `y`, `z` columns of a tracer dump are entries 1, 2, 3 of the whole position array; `bcov` is written from `bcon` | `C69_columns`, `C69_full_false`, `C69_field_false` |
| C91 | motion along the negative third axis is counted in a polar bin past the end | `C91_negative_axis`, `C91_full_false` |
| C92 | tracer rates are divided by the dump interval only in full dumps, and interpolated from zero ghost zones at block edges | `C92_other_dumps`, `C92_edge`, `C92_full_false` |
| C71 | the boost divides by the speed plus `SMALL`; the norm changes by terms of that order | `C71_full_false`, `C71_close` |
| C72 | the differential neutrino cross section contains the quadratic factor twice, its maximum once | `C72_iff`, `C72_fails`, `C72_isotropic`, `C72_full_false` |
| C93 | for the same reason it does not integrate to the total cross section | `C93_integral`, `C93_full_false` |
| C94 | `lw`, `lT` are shared between threads while the table is made | `C94_race`, `C94_full_false` |
| C95 | an existing table file is used for any frequency range | `C95_stale`, `C95_full_false` |
| C99 | a packet scattered in this step carries a two-point history of equal times when its next push is cut short, and is asked for a time before the oldest point | `C99_same_step`, `C99_short_push`, `C99_full_false` |
| C101 | every slab adds a shell to the luminosity; a radius on a face selects the outermost shell | `C101_slabs`, `C101_on_face`, `C101_full_false` |
| C102 | magnetic flux is zero with five or fewer zones per slab; efficiency uses the mass flux of one rank; normalised flux is the root of a negative number for inflow | `C102_narrow`, `C102_flux_false`, `C102_eff_false`, `C102_phi`, `C102_full_false` |
| C104 | seeds collide for many threads, and are the same after a restart | `C104_many_threads`, `C104_default_seed`, `C104_restart`, `C104_full_false` |
| C105 | the alarm is off on one rank; flavour conversion looks like a loss | `C105_single_rank`, `C105_conversion`, `C105_full_false` |
| C106 | origins are local indices of the rank of emission but read with the start of the present rank; index one past the end when `SMALL` is absorbed | `C106_moved`, `C106_absorbed`, `C106_full_false` |
| C107 | a restarted run appends lines for times already logged | `C107_duplicate`, `C107_full_false` |
| C109 | `fail` ends with status 0, or recurses through `diag` | `C109_status`, `C109_endless`, `C109_full_false` |
| C110 | the jet column uses the momentum component | `C110_full_false` |
| C111 | `1e-100` is added to the Planck function before dividing: no absorption far above the thermal peak | `C111_full_false` |
| C112 | total synchrotron emissivity has `Theta^5` for `Theta^4`; total gray emissivity is zero; tables are summed including both ends. (emissivity.c:125 also names a field `Bmag` that does not exist, so builds with synchrotron emission do not compile) | `C112_synch_false`, `C112_gray_false`, `C112_table_false` |
| C113 | flat antineutrino emission is negative for `Ye > 1/2` | `C113_full_false` |
| C116 | packets of weight below `SMALL` are dropped | `C116_full_false` |
| C117 | spacing of table axes is taken from the first two nodes and not checked | `C117_full_false` |
| C118 | highest frequency reads one past the table; the number of types in the file is not compared | `C118_top_false`, `C118_types_false` |
| C121 | data are computed from the marker at the beginning of the step, used according to the marker at its middle | `C121_never_computed`, `C121_stale`, `C121_full_false` |
| C122 | a step below `SMALL` is replaced by nearly the last step | `C122_full_false`, `C122_gray` |
| C123 | `fixup_utoprim` turns the flags round in place and leaves them so: ghost zones count as failed from the second repair on, as usable (though unset) in the first | `C123_ghosts`, `C123_first`, `C123_unset`, `C123_alternate`, `C123_full_false` |
| C125 | the absorbed energy `Jrad[1]` is added without `atomic` (core/interact.c:506), unlike its neighbours: contributions can be lost | `C125_full_false` |
| C126 | with outflow on the upper azimuthal side the evolution depends on the number of ranks in that direction (core/bounds.c:205: ghost zones are copies of the first active zone of the last rank) | `C126_full_false`: column of six zones, one rank against two |
| C131 | a rank that gives up all its zones calls `fixup` (core/fixup.c:355-356) and with it two more barriers; the run hangs | `C131_full_false` |
| C133 | restart files hold no recovery flags, and `restart_init` copies the half-step array before the boundary pass: where a recovery fails next to a ghost zone the resumed run differs | `C133_full_false` |
| C134 | a failed scattering loses the weight split off, and a packet that interacts beyond an outer boundary (only the midpoint of its path is checked, core/interact.c:191-202) gives its momentum to a ghost zone that is not returned | `C134_full_false`, `C134_beyond_lost` |
| C57 | with one zone per rank in a direction the two messages of a direction arrive in the same zones of the buffer, the first is lost (`C57_one_zone_lost`); the code avoids this by depositing in the rank's own zone, so with several ranks a contribution of a packet that is in a neighbour's zone is added to the own zone instead. Nothing is lost (`C57_deposits`), but it is not where the packet was | `C57_one_zone_lost` |
| C136 | the `memset` of `radG_buf` uses `NDIM` instead of `NDIM+NRADCOMP` components and leaves the end of the buffer; harmless, since the reduction empties the buffer and it is static | `C136_memset_short`, `C136_runs` |
| C137 | when the packets are too many only the rank with I/O calls `exit` (core/main.c:213-216); the others wait in the next reduction (core/rad_utils.c:98 or 128) until the launcher ends them | `C137_full_false` |
| C138 | the four-velocity stored with a tracer is computed from the half-step fluid at the position after the step (core/tracers.c:144), so it lags by half a step | `C138_full_false`, `C138_stored_partial` |
| C139 | `prune_tracers` does not reduce `tracer_tot`, so the number of tracers written (core/diag.c:294, core/main.c:206) counts the ones removed in the step; zones repaired by interpolation alone are not marked although the comment (core/tracers.c:398) speaks of cells that have been fixed up | `C139_full_false`, `C139_logged_partial` |
| C140 | the bounds over temperature are read at wrong places (C34), so `catch_var_2d` cuts energies, enthalpies and pressures that are in the table; the stored temperature then has another energy | `C140_full_false` |
| C141 | `nuLnu` is saved in restart files as `float` (core/io.c:1457) and read as `double`, so each restart rounds the spectrum; `Xbl[n+0]` is never set (core/io.c:486-488) and uninitialised memory is written to the grid file | `C141_full_false` |
| C143 | the toroidal field is normalised with the rank's own `bsq_max`, without `mpi_max` (prob/torus_cbc/problem.c:479-503): strength differs between ranks, and a rank outside the torus multiplies zero by infinity | `C143_full_false`, `C143_toroidal_empty`, `C143_toroidal_uneven` |
| C143 | the net flux sums `JSLOOP(0, N2/2-1)` and `ISLOOP(5, N1-1)` of each rank (prob/torus/problem.c:597, 615), which is the hemisphere only if the grid is not divided in radius or latitude; loops of `MAD == 0` use constants with more than one process (prob/torus/problem.c:359-363, 467-468) | `C143_net_latitude_false`, `C143_loops_false` |
| C144 | `coord_transform` of tori multiplies Kerr-Schild components by `dxdX`, which turns components of the code into Kerr-Schild ones (prob/torus_cbc/problem.c:580-587); bondi inverts it first (prob/bondi/problem.c:171-175). Without effect while the radial and polar velocity are zero | `C144_radial_wrong`, `C144_full_false` |
| C145 | with a tabulated equation of state `hm1 = exp(lnh) - 1 + hm1_min` (prob/torus_cbc/problem.c:226, 231) instead of `(1 + hm1_min) exp(lnh) - 1` | `C145_table_partial`, `C145_full_false` |
| C146 | `interp_1d` divides by `imax - imin - 1` (core/util.c:103-104) though the curve holds `imax - imin + 1` densities, the last of index `imax` (core/eos_stellar_collapse.c:1047, 1065): temperatures between the first density and the last are those of a lower density | `C146_spacing`, `C146_full_false` |
| C146 | the secant search is not checked against the bounds (core/root_finding.c), and the ends fall back to those of the table (core/eos_stellar_collapse.c:999-1013): an entropy the table does not have gives a curve far outside it | `C146_extrapolated` |
| C146 | `find_index(lrho_max) - 1` is `-1` when the search accepts the first density (core/eos_stellar_collapse.c:1033); only the other bounds are checked (1034-1037) before `tab_lrho[ilrho_max]` | `C146_before_table` |
| C148 | `w * thetae < 1.e-6` is tested before the temperature (core/scattering.c:819-824): photons of a hundred electron masses on electrons at 1e-9 get the Thomson cross section, twenty times too much | `C148_energetic`, `C148_full_false` |
| C149 | after 1000001 rejected draws the random numbers are halved, for good (core/scattering.c:362-374): particles are no longer drawn in proportion to the cross section | `C149_halved`, `C149_full_false` |
| C150 | `boost` divides by `SMALL` more than the speed (core/scattering.c:610-613) | `C150_full_false` |
| C151 | the masses of alpha particles and nuclei are `4 * (MN + MP)` and `(MN + MP) * Abar` (core/rad_utils.c:217-220, 263-268), twice what they are: half as many scatterers, at half the temperature | `C151_half`, `C151_full_false` |
| C153 | `normalize_null` takes the root of nonnegative energy at infinity (core/tetrads.c:145, core/scattering.c:113, 251): inside ergospheres a scattered packet can get another frequency than the one drawn, and packets of negative energy at infinity are refused (core/scattering.c:119) while part of their weight is taken away (core/interact.c:609-620) | `C153_altered`, `C153_refused`, `C153_full_false` |
| C155 | `Ne_unit` divides by `MP + ME` (core/util.c:151), `Thetae_unit` by `ME` times the mass `MP` (core/util.c:156, core/eos_gamma.c:71): particles have one part in 1837 less than the pressure of the gas | `C155_full_false`, `C155_size` |
| C158 | the centre of the sixth radial zone is exactly on the horizon (core/coord.c:422-427), where the Boyer-Lindquist metric divides by zero (core/metric.c:140): the velocity given to the first six zones of the inflow problem is not a number, until the boundary or a fixup replaces it | `C156_centre`, `C158_horizon` |
| C158 | `get_T` ends the run at all radii from 100 on (index 5/3); it replaces the end of the interval that has the root (prob/bondi/problem.c:75-81) and stops when two iterates are close, so that it may return a temperature far from the solution (index 13/12, radius 9/2) | `C158_exits`, `C158_wrong`, `C158_full_false` |
| C159 | `GAMMA_FALLBACK` makes the program ask for `gam` (core/input.c:95), the script sets and writes it only for `EOS_TYPE_GAMMA` (script/config.py:484, 727); likewise `poly_K`, `poly_gam`, `ms_theta_nu0`, `ms_delta0` are asked for and unknown to the script. The build ends well, the run is refused | `C159_full_false`, `C159_missing`, `C159_no_default` |
| C159 | both opacity tables: `opac_file` is written twice and the script stops in the second (script/config.py:757-761); without `Rout_rad` or `eospath` it stops midway, leaving a truncated file | `C159_stops` |
| C160 | numbers are written with `%e` and `%g`: 5/3 arrives as 1.666667, a restart interval of 12837612 as 12837610 | `C160_changed`, `C160_full_false` |
| C161 | `change_rparm` replaces every line that contains the name anywhere (script/util.py:117): changing `a` sets `gam` and `poly_alpha` too, through abbreviations the reader accepts; changing `cour` unsets `cour_cool` | `C161_spin`, `C161_courant`, `C161_full_false` |
| C163 | below the threshold all queries use the polytrope at the lowest density and temperature of the table (`COLD_FLOORS`, core/eos.c:67-71, and always for the others): pressure jumps for gas that is not cold. Densities at their floor never get there | `C163_full_false`, `C163_floor` |
| C164 | `EOS_SC_gamma` multiplies the sound speed in units of light by density over pressure in cgs (core/eos_stellar_collapse.c:672-675), leaving out the enthalpy: always 1.1. Used for the adiabatic constant in the log | `C164_always`, `C164_missing_factor`, `C164_full_false` |
| C165 | heavy nuclei: fraction, mean mass and mean charge are interpolated separately, so the charge between points is not the electron fraction | `C165_full_false` |
| C166 | `linear_interp_K2_synch` and `linear_interp_F_synch` at the upper end of their range read one entry beyond the table (core/emissivity.c:276-303) | `C166_hottest`, `C166_last`, `C166_full_false` |
| C167 | `vec_component` names the index file instead of the dump (core/xdmf_output.c:243); `Jrad` has dimensions {MAXNSCATT+2,N1,N2,N3} in the dump (core/io.c:974); a radius to show beyond the grid is not cut off | `C167_vectors`, `C167_jrad`, `C167_beyond`, `C167_full_false` |
| C168 | the weight in electron fraction uses the value before it is held in the table (core/opacity_table_module.f90:168; the comment calls it a hack for the upper end, it acts at the lower end too) | `C168_affine`, `C168_full_false` |
| C169 | `idint` truncates towards zero, so an energy less than a spacing below the table is extrapolated instead of clamped (core/opacity_table_module.f90:370); `ngroups = 3*(NU_BINS+1)` leaves a fourth species unset (core/opac_emis_neutrino.c:37) | `C169_below`, `C169_extrapolates`, `C169_fourth`, `C169_full_false` |
| C170 | `fix_flux` stops mass flowing in through radial boundaries, but not the passive scalars (or entropies) it carries (core/bounds.c:293-313), so the number per mass grows there | `C170_outflow`, `C170_outflow_witness`, `C170_full_false` |
| C171 | a step that starts before half of the final time may be cut to `tf - t` rounded, and `t + dt` rounds to one last place beyond `tf` (core/step.c:132, 172-174); `SMALL` is 1e-20, far below the last place of `t`, so the rescue of core/step.c:161-168 adds nothing | `C171_overshoots`, `C171_full_false`, `C171_stall_witness` |
| C172 | `(X - startx)/dx + NG - global_start` rounds up to the next face (core/rad_utils.c:386-390): packets just below the end of a rank are looked up, and deposit, in its ghost zone | `C172_edge`, `C172_full_false` |
| C173 | temperatures are compared with `np.isclose(..., atol=0.1)` though tracers are to be taken "when they drop below" (script/analysis/accumulate_tracers.py:58, 181); with one process the temperature is not passed on (lines 164-165) | `C173_jumps`, `C173_jump_witness`, `C173_one_process`, `C173_full_false` |
| C175 | `_cond_pole` compares the latitude with pi instead of a right angle (script/analysis/prune_tracers.py:77): no tracer near a pole is removed | `C175_poles_kept`, `C175_full_false` |
| C177 | fluid looked for in a dataset `p`; restart files and dumps have `P`, no status is looked at (core/io.c:1815, 1841, 1846): the run starts from zero everywhere | `C177_ignored`, `C177_full_false` |
| C178 | `range(imin,imax)` leaves out the dump `imax` (average_dumps.py:59); `/=` on integer arrays such as `dump_id` stops the script (line 68) | `C178_full_false`, `C178_dump_id`, `C178_last` |
| C179 | Simpson weights on a ring of equal zones (dump_3d_to_2d.py:163-165): amounts change, and with the cut; axes of the metric found by their length (lines 106, 109) | `C179_full_false`, `C179_cut`, `C179_metric_equal` |
| C181 | interpolation taken at the points it was made from (dump_3d_to_2d.py:155) | `C181_full_false` |
| C182 | plane waves sampled at zone centres (prob/mhdmodes2d/problem.c:94-103): with unequal numbers of zones the field starts with a divergence; the slow mode of three dimensions (mhdmodes3d/problem.c:55-57) does not add up to zero | `C182_two_dim_iff`, `C182_full_false`, `C182_slow_sum` |
| C184 | `u1 >= 1` compares the four-velocity with the speed of light (prob/advection1d/problem.c:60): speeds above 0.707 are turned away; `sqrt` loses the sign of `cadv` (:59); only `cadv >= 1` is checked (:29) | `C184_turned_away`, `C184_full_false`, `C184_not_numbers` |
| C185 | `u10 = 0.1` is a four-velocity (prob/entropy/problem.c:29, 81); test/entropy.py:58, 65 and `tf = 17.321` (:49) take it for the speed | `C185_full_false`, `C185_three_not_back` |
| C186 | the bounds of pressure and enthalpy are looked up at a shifted density (C34), so with a table of an ideal gas the energy found from the pressure may be wrong by a step of the table; `GAMMA` is written as ones (script/analysis/make_tabulated_gamma.py:114), so that thin gas has a pressure proportional to density whatever its energy | `C186_full_false`, `C186_thin` |
| C189 | after a restart the reader keeps rows of the old session later than the restart, loses the first two rows of the new one and may keep two rows of one time (script/analysis/hdf5_to_dict.py:594-614) | `C189_full_false`, `C189_repeated`, `C189_restart_partial` |
| C190 | the time is logged with five digits (core/diag.c:267), and rows of equal printed time are dropped (script/analysis/hdf5_to_dict.py:596) | `C190_full_false` |
| C192 | covariant vectors are multiplied with the stored inverse Jacobians, not their transposes (script/analysis/hdf5_to_dict.py:456-466), the covariant magnetic vector even with the contravariant matrix (469) | `C192_full_false`, `C192_bl_partial`, `C192_transposed` |
| C193 | trace-free parts subtract a third of the trace times `np.kron(mu,nu)`, which is the product of the indices (script/analysis/hdf5_to_dict.py:661-662) | `C193_full_false` |
| C194 | `full_dump` (core/io.c:768) is looked for as `FULL_DUMP` (script/analysis/hdf5_to_dict.py:59,117), so reduced dumps are taken for full ones and fail; `CS2` (core/io.c:951) is looked for as `SC2` (341); angular distributions are asked for in builds that do not write them (395-400, core/io.c:1079) | `C194_full_false`, `C194_light`, `C194_listed`, `C194_content_partial` |
| C195 | a `data.p` left over is taken for the result of a test that crashed, the return code is not looked at (test/test_all.py:166-172); the mean divides by one less (144); zero over zero (142); tests of bondi, oscillations and mhdmodes leave results that cannot be compared (test/bondi.py:112, test/oscillations.py:98-99, test/mhdmodes1d.py:213); standard error is a pipe nobody reads (test/test_all.py:158) | `C195_full_false`, `C195_two_points`, `C195_equal_fails`, `C195_no_verdict`, `C195_hangs` |
| C196 | the reference ignores the motion of the gas (test/yedecay.py:93 computes `u^0` and does not use it), which agrees with the extra factor `u^0` of the program (C44) | `C196_full_false`, `C196_boost_rejects` |
| C197 | counts per thread are rounded (prob/binning/problem.c:63, prob/multiscatt/problem.c:73, prob/comptonization/problem.c:54, prob/oscillations/problem.c:89); type not assigned in prob/binning/problem.c, nor in prob/oscillations/problem.c:147-153 for a random number above the sum of fractions; marks never | `C197_full_false`, `C197_fields_partial` |
| C198 | formulas assume the negative part is the deep one (test/oscillations.py:87-94) | `C198_full_false` |
| C200 | light asked for as `RADTYPE_LIGHT` gets three types (script/config.py:340-346), each radiates all of the emissivity | `C200_full_false`, `C200_by_name` |
| C201 | `-fast` changes the final time from which the density and hence the energy at the start is computed (prob/brem/build.py, prob/brem/problem.c); masses differ in temperature and density | `C201_full_false`, `C201_fast`, `C201_rate` |
| C204 | comparisons with not-a-number are false, so such results pass (prob/table/problem.c:116, 148, 179, 243-248); two of the quantities are compared by absolute difference only, with a threshold of a hundredth, while energies start at `1e-7` (prob/table/build.py:26) | `C204_nan`, `C204_small`, `C204_full_false` |
| C205 | `set_weight` is called at every restart (core/io.c:1918) but otherwise only at tunings (core/rad_utils.c:97-126), and its result is not in the restart file | `C205_exactly`, `C205_full_false` |
| C206 | differences are divided by the determinant of the metric, which grows like the fourth power of the radius (script/analysis/check_transformation_matrices.py:152, 176); beside this, `get_h2cart` calls itself without end (script/analysis/jacobians.py:145) | `C206_far`, `C206_full_false` |
| C207 | the sign in `ut_calc_3vel` (core/fixup.c:50, C11) makes every zone floored in the drift frame leave with the velocity of its normal-observer frame taken for a four-velocity: divided by the Lorentz factor, and never above a Lorentz factor of the square root of two | `C207_across`, `C207_slow`, `C207_full_false` |
| C208 | normal-observer floors add the missing density as mass at rest (core/fixup.c:198-219), so moving gas gets only a part of it: also exact recovery leaves zones below their density floor | `C208_density`, `C208_full_false` |
| C209 | the energy floor of a table is raised to the bound of the field only if the bound exceeds the *absolute value* of the least energy (core/eos_stellar_collapse.c:908): where that is negative the bound is not kept, and the floor jumps by twice its size when the field passes it | `C209_table_energy`, `C209_jump`, `C209_full_false` |
| C210 | script/analysis/luminosities.py:13 uses `linspace` over the whole range where the program has bins, so luminosities are too large by one part in the number of bins less one, apart from halved end bins; with one bin they are zero | `C210_luminosity`, `C210_packets_partial`, `C210_full_false` |
| C211 | script/analysis/get_mass_Ye_from_tracers.py:42-43 adds the field energy twice: bound magnetised gas is counted as outflow | `C211_excess`, `C211_full_false` |
| C212 | core/rad_utils.c:56 overwrites the parameter `tune_scatt` in the black-hole metric; :69-73 overwrites `t0_tune_emiss` and `t0_tune_scatt` in cold runs with electrons | `C212_black_hole`, `C212_electrons`, `C212_full_false` |
| C213 | core/rad_utils.c:132, 154: a change of the scattering strength ahead of time moves the schedule by an interval as well, so a burst of scatterings switches the control off for as many intervals as it lasted steps | `C213_postponed`, `C213_full_false` |
| C216 | `EOS_SC_init` keeps only the status of its last read (core/eos_stellar_collapse.c:46-321, 556): a file without any dataset but `gamma` is accepted and the run goes on with memory nothing has written | `C216_full_false`, `C216_accepted_iff` |
| C218 | the command that makes the directories holds three or four copies of the output directory in one buffer of the length of a name, so a name over 670 (499) characters overruns it; a name without a final slash gives `rundumps/` instead of `run/dumps/` (core/io.c:157-194) | `C218_full_false`, `C218_overrun`, `C218_beside` |
| C221 | `load_tracer` appends the optional variables it finds to the class attribute `TracerData.varnames['data']` (script/analysis/hdf5_to_dict.py:1059-1065): after a file with magnetic fields no file without can be read in the same session, nor the reduced copy of any file of a run; and units are required, which runs without `NEED_UNITS` do not write | C221_full_false, C221_reduced_after, C221_full_false_units |
| C222 | with more processes than files (the default number is that of the processors) a process takes the first of no files; the handler of failures uses `idx` before it has a value (script/analysis/accumulate_skynet_output.py:53, 73) | C222_too_many, C222_first_missing, C222_full_false |
| C223 | the array is transposed before the rows with positive identifiers are chosen (script/analysis/accumulate_skynet_mass_fractions.py:71-72) | C223_never, C223_first_failed, C223_full_false |
| C227 | the last of the crossings is taken before traces that start cold are looked for, so that one that is never hot raises `IndexError`; the branch for records that are too far apart uses `optimize`, which is not imported, and `newx`, which does not exist (script/analysis/tracers_to_PRISM.py:12, 277, 283-305) | C227_full_false, C227_full_false_step, C227_full_false_heated |
| C228 | the radius is divided by `cgs['KM']` and the header says `R[cm]` (script/analysis/tracers_to_PRISM.py:354, 393) | C228_radius_km, C228_full_false |
| C229 | the results of `p.map` are never looked at, so that failures of workers are lost; a failure after `os.chdir` leaves the worker in another directory; without `-s` a function is called with an argument it does not have (script/analysis/tracers_to_PRISM.py:416-428, 479-482, 514, 584) | C229_full_false, C229_silent, C229_schedule, C229_full_false_time |
| C230 | `thetae < MAXT` does not keep `(lT - lmint) / dlT` below `NT`: for the largest doubles below `MAXT` it is `NT`, and `table[i][NT + 1]` is read, with weight zero (core/scattering.c:787-797) | C230_overrun, C230_full_false |
| C231 | `resid += udotG_abs` adds what is absorbed to what is emitted, and `(1. - amp)` what scattering gives away with the opposite sign, against the comment above (core/estimate_thetae.c:89, 102, 118-123); `get_J(&m)` in line 73 names a variable that is not declared, so the option does not compile | C231_solved, C231_absorption_cools, C231_full_false |
| C232 | `iter` is never increased and the status of the iteration is overwritten (core/estimate_thetae.c:269-277); `ZLOOPALL` reads estimates that only `ZLOOP` writes (core/rad_utils.c:283, 296; core/estimate_thetae.c:234) | C232_endless, C232_ghost, C232_full_false, C232_full_false_ghost |
| C233 | for a string `write_array` overwrites the property list made in line 2256 and never closes the type (core/io.c:2289-2291); `strtype` is not closed (core/io.c:913-923); `Ye_em` is never freed (core/io.c:2013, 2229-2231), nor `Gamma` (core/io.c:556-567); `read_array` overwrites a property list (core/io.c:2319-2321) | C233_write, C233_read, C233_dump, C233_restart, C233_tracers, C233_grid, C233_full_false |
| C234 | `np.tan(geom['th'] - th0)` changes sign a quarter turn from the middle (script/analysis/zoh.py:21) | C234_flipped, C234_full_false |
| C235 | Simpson's rule with unequal spacing has negative weights (script/analysis/zoh.py:74); a range with one radius divides zero by zero | C235_full_false, C235_short |
| C237 | `imin < 0` becomes 0 while `imax < 0` counts from the end, and `imax + 1` may stay negative (script/analysis/average_sadws.py:89-97) | C237_full_false, C237_beyond |
| C238 | `np.abs` is taken of the average, not of the times averaged (script/analysis/get_dynamical_time_time_parallel.py:146) | C238_full_false |
| C240 | `detg` is the root of the determinant of the metric of space without the sine of the angle (script/analysis/torus_id.py:126-127) | C240_volume, C240_full_false |
| C241 | `L*unit**3` instead of `L_unit**3` (script/analysis/torus_id.py:172): `NameError` for every ideal gas | C241_ideal, C241_full_false |
| C157, C239 | `Risco` in headers is that of the opposite spin for negative spins (core/coord.c:417), the script distinguishes them (script/analysis/torus_id.py:31) | C239_code |
| C242 | `integrate.simps` over zones gives every other zone twice the weight (script/analysis/ye_statistics.py:15-29) | C242_full_false |
| C243 | `sol = 0.5` for anything not a number, without notice (script/analysis/ye_equil.py:58-64) | C243_nan, C243_full_false |
| C244 | `timers_reset` after the first step leaves `nstep_start` (core/timing.c:46-50, core/main.c:252-253); `fixup` inside `fixup_utoprim` restarts the same timer (core/fixup.c:355-356) | C244_fresh, C244_full_false, C244_nested |
| C245 | arrays told apart by length (analyze_eos.py:192); `np.gradient >= 0` as a test of monotony (line 217); the densest point is left out (line 486) | C245_square_case, C245_dips, C245_full_false, C245_last |
| C246 | the loaded dump has no `dump_id`, so the largest number in the path, at least the 5 of `.h5`, numbers the average (dump_3d_to_2d.py:327-334); `replace('2d','')` acts on the whole path (dir_3d_to_2d.py:68) | C246_clash, C246_first_six, C246_always_redone, C246_named_2d |
| C247 | sums over the wedge divided by the volume of the whole shell (eht_analysis.py:82, 102, 122-128); the loop for the first dump falls through to the last (lines 169-172) | C247_below, C247_full_false, C247_time_late |
| C248 | `flip` puts the zones next to the poles on the axis (plot.py:81-83, 136-137); zone `N3//2` is opposite to zone 0 for even `N3` only (line 78) | C248_poles, C248_full_false, C248_opposite |
| C249 | `rstrip('.h5.bz2')` removes characters, not an ending (get_stellar_collapse_eos.py:71-74, 80, 85) | C249_bhb, C249_missed, C249_full_false |
| C250 | options not on the list are not read from the environment (config.py:15-22); `EXECUTABLE = 'mpirun'` names no number of processes (badger_node.py:53); badger_node.py can never be chosen; test/binning.py:54 passes a string, which is refused | C250_full_false_options, C250_full_false, C250_shadowed, C250_refused |
| C251 | only oddness of the scale is checked (build_weak_scaling.py:31-32), so 6, 0 or -2 end in NameError | C251_name_error, C251_full_false |
| C252 | a frame counts as done if a file of its name is there (movie.py:96-98), also if it was cut off or has other settings; the cache given by the user is removed after the movie (124) | C252_broken_stays, C252_full_false, C252_full_false_settings, C252_cache_lost |
| C253 | bins of angle and time are closed at both ends (plot_tracers.py:130-135), so tracers on an edge count twice; the mass accumulated never contains the last bin (169-170) | C253_two_bins, C253_full_false, C253_last_missing |
| C254 | in the tests of waves in two and three dimensions the error is assigned in each turn of the loop over zones (mhdmodes2d.py:135, mhdmodes2d_mpi.py:129, mhdmodes3d.py:160), so only the last zone counts | C254_last_zone, C254_blind, C254_full_false |
| C255 | mass from both sides of the plane is divided by the solid angle of one (plot_tracers.py:82-89, 337-339) | C255_half, C255_twice, C255_full_false |
| C82 | minimum energy looked up with a code-unit density in two of three places | `C82_full_false`, `C82_ratio` |
| C16 | the entropy cap lowers the energy below its floor | `C16_entropy_cap_breaks_floor` |

The remaining `partial` claims (C06, C08, C11) are described in `MANIFEST.json`.

Properties not expressible: none so far; actual thread/MPI runtime behaviour is outside the model and labelled `partial` where the
property depends on it. Arithmetic is exact except in `Model/FloatTime.lean` and `Model/FloatZone.lean`, which round every operation
with the formats of `Model/Rounding.lean`: any precision and least exponent, subnormal numbers included, any rounding to nearest
(round-half-even is shown to be one); there is no largest number, and no infinities or NaN, in these formats.

## Seeded-bug log

`seeded/LOG.jsonl` has one line per edited model. `failed` lists the theorems whose own proof Lean rejected. `inferred_dependents`
lists property theorems whose text mentions, directly or through others, a rejected theorem; they were found by name matching
and were not separately shown to be false of the edited model. An entry with an empty `failed` and a non-empty `tightened` is a
surviving edit that led to the named theorems being added or strengthened; the repeat of the edit is logged separately.
A rejected proof is evidence that the theorem depends on the edited definition, not in itself a proof that its statement is false
there; the edits were chosen so that the English claim is false.
