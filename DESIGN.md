# Formal model of CGMF in Lean 4

Source modelled: lanl/CGMF, `/repo` (read only, never built or run here).

## Approach

* One total Lean function per C++ or Python function, or per loop, each with a comment citing
  file and lines. Where the model simplifies, the comment says so.
* Numbers: a C++ `double` is an element of an arbitrary linear ordered field `K`, or a real
  number where `sqrt`, `sin`, `cos`, `log` or a measure matters, or a rational in the text layer
  and the Python toolkit. Rounding errors, overflow, NaN and infinity are not modelled as values;
  an operation whose result would be NaN or infinite is the outcome `ub` where the theorems
  depend on it.
* Random numbers: an arbitrary list, consumed from the front. Theorems quantify over all lists.
  A run that needs more numbers than the list holds has the outcome `more`, so a loop that
  never ends is `more` for every list or every fuel.
* Outcomes (`Model/Basics.lean`, `Model/Rnd.lean`): `ok` a value, `exit` the process stops
  (or Python raises), `ub` undefined behaviour (out-of-bounds access, use after free, null
  pointer, uninitialised value, NaN), `more` not finished.
* External data and physics (mass tables, level files, potential parameters, `exp`, `erf` where no analysis is
  needed) are parameters; the decay model takes transmission coefficients and level densities as parameters, and C84
  puts in the computed ones. Theorems hold for all of them,
  under hypotheses that are stated.

## Layout

* `Verif/Model/*` models of the code.
* `Verif/Spec/*` small specifications, independent of the model's helpers.
* `Verif/Proofs/*` lemmas.
* `Verif/Props/*` the property theorems (namespace `CGMF.Props`), each with an `example` showing that
  a concrete case meets its hypotheses.
* `seeded/LOG.jsonl` one line per wrong program the theorems were tested against.

## Trusted base

* The Lean 4.33.0 kernel and Mathlib's definitions (fields, lists, reals, floor, Lebesgue measure).
* No axioms are added; no `sorry`, `native_decide`, `bv_decide`, `implemented_by` or `unsafe`.
  `decide +kernel` appears in concrete examples only or for closed facts; it is checked by the kernel.
* That the definitions in `Verif/Model` describe the code. They were transcribed by reading; nothing
  in this repository executes the C++ or Python code.
* That C++ and Python library calls behave as modelled: `std::vector`/array access, `new`/`delete`,
  `printf`/`fprintf` number formats, Python `split`, `int`, `float`, and numpy broadcasting,
  boolean masks, `mean`, `min`, `max`, `histogram` (assumptions are listed at the head of
  `Model/Toolkit.lean` and `Model/Text.lean`).

* For the probability laws only (C85 to C87, C99, C100, C103, C108 to C110, C113 to C117, C122, C127, C128): that the numbers delivered by the generator are independent and uniform on `[0,1)`
  (`Spec/Law.lean`). The Mersenne twister is deterministic; the theorems describe the idealised source.
  All other theorems hold for every sequence of random numbers.

* For the theorems on double arithmetic only (C123 to C126, C130, C131, C133, C142, C145, C147, C148, C149, C150, C151, C152, C153, C154, C155, C156, C157): that each operation of type `double` gives a nearest number of the format (53 bits,
  exponents from -1074), evaluated operation by operation without fused or extended operations, and without overflow
  (`Spec/Float.lean`). All other theorems use exact arithmetic (ordered fields or reals) unless their model says otherwise.

### Axioms of each theorem

Printed by `#print axioms`:

* `propext, Classical.choice, Quot.sound` (556 theorems): C01_gate_exact, C01_gate_refuses, C02_compound_partial, C02_negative_id_undefined, C03_prefission_getters, C04_decay, C04_event_lists, C07_seeds_injective, C09_window_partial, C09_window_refuted, C100_cosine, C100_fragments, C100_neutron, C100_particles, C100_rotation, C101_absorbs, C101_depths, C101_mesh, C101_no_source, C101_outside, C101_tiny, C102_electron, C102_lines, C102_merged, C102_overrun, C102_partial, C102_record, C102_record_overrun, C102_soft, C102_sound, C103_levden, C103_start, C104_long_line, C104_mass_partial, C104_spontaneous, C104_tke_partial, C105_continuous, C105_fallback_partial, C105_first_chance, C105_peak, C105_viola, C106_levels, C106_short, C106_text, C106_truncated, C107_ratio_overrun, C107_ratio_partial, C107_sign, C107_unlisted, C108_history, C108_joint, C108_parameter, C108_scaling, C109_joint, C109_momenta, C109_pair, C109_tke_partial, C109_undefined, C10_summary, C110_bin, C110_ends, C110_forced, C110_level, C110_neutron, C110_pass, C110_photon, C111_absent, C111_cut, C111_distribution, C111_long_line, C111_own, C112_defined, C112_forward, C112_gap, C112_isotropic, C112_law_partial, C112_refuted, C112_sampled, C112_zero, C113_chained, C113_kinds, C113_multiplicity, C113_pattern, C114_decay, C114_history, C115_ends, C115_event, C115_first_chance, C115_joint, C115_positive, C115_threshold, C116_fragment, C116_run, C117_events, C117_pair, C118_monotone, C118_negative, C118_shift, C118_shipped_partial, C118_symmetric_sign, C118_symmetric_width, C118_weights, C119_between, C119_complete, C119_cut_partial, C119_pairing, C119_totals, C119_wrong_number, C11_totals_consistent, C120_complete, C120_cut_partial, C120_pairing, C120_totals, C120_wrong_number, C121_populated, C121_spectrum, C122_evaporation, C122_joint, C122_preequilibrium, C123_norm, C123_range, C123_rest, C124_anisotropic, C124_emission, C124_fragment, C124_isotropic, C124_sine, C124_table, C125_bounds, C125_charge, C125_index, C125_mass, C125_overshoot, C125_window, C126_chance, C126_chance_none, C126_fallback, C126_interval, C126_missed, C126_zero, C127_again, C127_event, C127_fragment, C127_limit, C127_seen, C128_all_alike, C128_each, C128_independent, C128_one_object_partial, C128_refuted, C128_start, C129_bounded, C129_peak, C129_program, C129_yields_delete, C129_yields_refuted, C12_exact_on_grid, C12_history_roundtrip, C130_calls, C130_constructor, C130_draws, C130_events, C130_guard_needed, C130_near, C130_range, C130_seeds, C130_zero, C131_balance, C131_floor, C131_level, C131_mesh, C131_neutron, C131_neutron_next, C131_photon, C131_photon_level, C131_top, C131_velocity, C132_refuted, C132_refuted_event, C133_doppler, C133_photon, C133_positive, C133_recorded, C133_vector, C134_sums, C134_table, C135_counts, C135_refuted, C135_threshold_partial, C136_table, C137_agree, C138_events_partial, C138_iff, C138_refuted, C138_seeds, C138_summary, C139_atof, C139_options, C139_refuted, C13_yields_roundtrip, C140_null, C140_partial, C140_refuted, C140_unresolved, C141_deformations, C141_levels, C141_masses, C141_parameters, C141_printed_fixed, C141_printed_int, C141_ratio, C142_gaussian, C142_positive, C142_stops, C142_tke, C142_value, C143_high, C143_refuted, C144_between, C144_fragments, C144_odd, C144_refuted, C144_silent, C145_direction, C145_divide, C145_fission, C145_fragment, C145_neutron, C146_levels, C146_number, C146_point, C146_temperatures, C146_word, C147_available, C147_balance, C147_ends, C147_kinetic, C147_share, C147_steady, C147_table, C147_tables_end, C147_tables_steady, C148_mean, C148_split, C148_summary, C149_accept, C149_attempt, C149_charge, C149_from_zero, C149_index, C149_law, C149_mass, C149_spin, C14_concatenation, C14_headerless_refused, C150_azimuth, C150_cosine, C150_direction, C150_parity, C151_equal, C151_left, C151_photon, C152_rises, C152_time, C152_window, C153_path, C154_bypass, C154_forced, C155_ends, C155_inside, C155_uniform, C156_cut, C156_level, C156_neutron, C156_none, C156_photon, C157_competition, C157_spectrum, C157_total, C158_energy, C158_forward, C158_limits, C159_close_partial, C159_refuted, C15_partition, C160_energy, C160_momentum, C160_square, C160_velocity, C161_partial, C161_refuted, C16_discrete_start, C16_energy_balance_partial, C16_refuted, C17_nonnegative, C18_capacity, C18_fuel, C18_memory_safe, C18_short_array, C18_terminates, C19_ages, C19_delay, C20_fallback, C20_inverse_cdf, C20_no_fallback, C20_states_once, C20_zero_draw, C21_defined, C21_forced_partial, C21_odd_refuted, C23_residual, C24_neutrons_fit, C24_storage_iff, C24_time_stamps_overrun, C25_grid, C25_low_energy, C26_largest, C26_open_neutrons, C27_chain, C27_channels, C28_limits, C28_normalised, C28_read, C29_all_known, C29_fill, C29_fill_total, C29_way_down, C30_defined, C30_flux, C31_selection, C32_bin, C32_bin_inside, C32_bin_overrun, C32_cascade_overrun, C32_conserved, C32_discrete, C32_feeding, C32_spectrum, C33_beta, C33_levden_partial, C33_levden_unnormalised, C33_single, C33_transmission, C34_refuted, C34_start_partial, C35_defined, C35_momentum, C36_chain, C36_record, C37_momentum, C37_sequence, C38_event, C39_unit, C40_split, C41_angle_refuted, C41_axis_partial, C41_formula_refuted, C41_limits_partial, C42_balance_partial, C42_entropy, C42_entropy_refuted, C43_not_terminating, C43_result, C43_slopes_end_partial, C43_slopes_partial, C43_terminates_partial, C44_normalised, C44_range, C44_row_overrun, C44_slope_ignored, C44_symmetric, C45_column, C45_moved_window, C45_no_width, C45_table, C46_charge_partial, C46_charge_refuted, C47_complementary, C47_defined, C47_energy, C47_formula, C47_limits, C48_heights, C48_no_zero, C48_probability, C48_range, C49_average, C50_distribution_partial, C50_interpolated_partial, C50_lowest_energy_undefined, C50_number, C50_probability, C51_below_barrier, C51_energy_partial, C51_negative_energy, C52_asymmetric, C52_isotropic, C52_sampled, C52_table, C53_inside, C53_nodes, C54_distribution, C54_probability, C54_spin, C55_neutrons, C55_photons, C55_photons_all, C55_threshold_fails, C56_columns_partial, C56_mass_partial, C56_photons, C56_refuted, C56_tke_partial, C57_count, C57_pairs_partial, C57_refuted, C58_monotone, C58_per_fragment, C58_time, C59_after_clean_undefined, C59_getter_first_undefined, C59_safe_histories, C60_after_cleanup_undefined, C60_driver_no_leak, C60_safe_iff, C62_yields_mode_ungated, C63_cgm_directions_indeterminate, C63_cgm_event, C64_loadable_iff, C64_unloadable, C65_kepost_partial, C65_kepost_refuted, C66_additive_partial, C66_at_rest, C66_momenta_partial, C66_moving_refuted, C66_preeq_refuted, C66_tke, C67_absent_undefined, C67_lookup_partial, C68_bins, C68_counts, C69_neutrons, C69_normalised, C69_value, C70_absent, C70_ratio, C71_inward, C71_matching, C71_probability, C71_start, C71_value, C72_complete, C72_flux_balance, C72_no_source, C72_real_potential, C73_low_energy, C73_no_exit, C73_order, C73_returns, C73_wronskian, C74_not_cross_section, C74_reaction_partial, C75_derivative, C75_mesh_partial, C75_overrun, C76_absorptive, C76_surface_dropped, C77_converges, C77_nonneg, C77_solution, C77_unique, C78_density, C78_endpoints, C78_matrix, C78_pairing, C78_pauli, C78_rates, C78_single, C79_emission, C79_evaporation, C79_exciton, C80_below, C80_connect, C80_continuous_partial, C80_extrapolate, C80_joined_extrapolate, C80_joined_partial, C80_jump, C80_parameter, C80_shell, C80_shell_jump, C81_densities, C81_history_partial, C81_positive, C81_scale, C81_spin_cut, C81_stale, C82_found, C82_temperature, C83_E1, C83_M1_E2, C83_even, C83_nonneg, C83_setup, C83_temperature, C83_zero_energy, C84_flux, C84_gamma, C85_bin, C85_ends, C85_mass_charge, C85_number, C85_pair, C85_spin, C86_halflife, C86_path, C87_branching, C87_competition, C88_each, C88_neutrons, C88_photons, C88_range, C88_split, C89_names, C89_neutrons_partial, C89_photons_partial, C89_refuted, C90_integral_partial, C90_refuted, C91_between, C91_fragments, C91_neutrons, C92_gates, C92_list, C92_refused, C93_default, C93_ignored, C93_partial, C93_refuted, C93_steps, C95_cut, C95_value, C96_partial, C96_read, C97_partial, C97_refuted, C98_order, C98_partial, C98_refuted, C98_required, C98_settings, C99_ends, C99_gaussian, C99_normaldist, C99_tke.
* `propext, Quot.sound` (65 theorems): C05_datapath, C05_datapath_exit_iff, C06_conservation, C07_seeds_tile, C08_event_from_seed, C08_parallel_equals_serial, C08_progress_safe, C08_split, C09_window_exact, C09_zero_window_is_infinite, C104_last_line, C104_missing_file, C105_own, C105_unset, C106_missing_file, C107_missing_file, C107_parameters, C107_parameters_overrun, C10_zero_events_undefined, C111_missing, C128_same_number, C129_absent, C129_stops, C132_cgm_first, C132_event_first, C132_exact, C132_ground, C132_partial, C139_atoi, C143_missing, C18_dead_end, C21_no_levels, C21_when_forced, C22_cascade_walk, C42_unknown_option, C46_total, C49_symmetric, C49_table_overrun, C50_limit_raised, C51_nucleus, C53_beyond, C54_parity, C60_driver_no_events, C61_constructor_seed_ignored, C61_install_copies, C61_no_generator_fails, C61_stream_from_seed, C62_yields_mode_partial, C76_forms_partial, C78_in_table, C78_table_end, C79_closed, C91_empty, C94_deformations, C94_masses, C94_masses_refuted, C94_partial, C94_refuted, C94_temperatures, C95_garbled, C95_partial, C95_refuted, C96_refuted, C96_user, C97_comments.
* `none` (2 theorems): C95_anisotropy, C95_local.

## What is modelled

| Source | Modelled | Not modelled |
|---|---|---|
| utils/cgmf/cgmf.cpp | options (`getopt` with GNU ordering), driver loop, seeds, ranks, accumulation and summary, output files, progress test | `atoi`, `atof` (parameters), MPI library, wall clock |
| libcgmf/src/cgmfEvents.cpp, include/cgmfEvents.h | input gates, data path, constructors, assembly of the event, getters, generator and window state, allocation and release, one object for all fissions of a yields file or one for each | `outputOptions`, `cgmCheckRange` |
| libcgmf/include/rngcgm.h | all, with `std::mt19937` after the C++ standard and the conversion to `double` of libstdc++ | the C++ library itself (its engine is modelled from the standard: outputs 1 and 10000 of the default engine are those the standard gives) |
| libcgmf/src/cgmfEvents_capi.cpp | call sequences on a heap model | the plain forwarding getters are represented by one getter |
| libcgmf/src/FissionFragments.cpp | reaction switch, sampling of mass/charge/TKE, energy sharing, spin, parity, kinetic energies, multi-chance fission, pre-fission neutrons, yields tables, Wahl's charge model, angular table, table interpolation and the defaults it stores, spin parameter, readers of masses, deformations, temperatures, level densities, spin scaling, pre-equilibrium fractions, temperature ratios, multi-chance fission probabilities (as text), angular table of pre-equilibrium neutrons, anisotropy look-up in IEEE arithmetic | readers of systematics files as text, `YAZTKEfile` legacy readers |
| libcgmf/src/Yields.cpp | `setYieldParameters`, `setTKEParameters` with their row readers, `ViolaSyst`, `setFissioningSystem`, `setRescaleTKE`, `yieldA`, `gaussian`, `setParametersAverageTKE`, `averageTKE`, `sampleTKE`, `get_avTKE`, `sampleGaussian` (its law in C99; elsewhere its result is a parameter) | `yieldATKE`, `yieldTKE` |
| libcgmf/src/specmc.cpp, output.cpp (cgmGetSpectra) | decay of one fragment: history loop, next state, perturbation, low cut, discrete cascade, record; single-nucleus mode: start, spectra, lines | evaporation option (off) |
| libcgmf/src/setup.cpp, specmain.cpp | energy grid, chain of nuclei, compound decay, bypass, level repair, energy bin search, `normaldist` (unused by the code) | deterministic spectrum calculation (`specMain` loops over all bins) |
| libcgmf/src/gampop.cpp, parpop.cpp, stattrans.cpp | populations from one parent state | transmission coefficients (parameters) |
| libcgmf/src/popinit.cpp, gamcas.cpp, ripl2levels.cpp | the routines reached from `cgmf_event` and `cgm_event`, the level file as text | the older readers `riplReadDiscreteLevels`, `riplSetNmax`, `riplFixNmax`, `riplSelectCandidate`, reached only from the level density table builders that nothing calls |
| libcgmf/src/kinematics.cpp | all | |
| libcgmf/src/masstable.cpp | as a partial function | the table itself |
| libcgmf/src/etc.cpp, extwave.cpp, intwave.cpp, smatrix.cpp, omsetform.cpp, omsetparm.cpp, omcalc.cpp | neutron optical model: outer and inner wave functions, S matrix, transmission coefficients, mesh, radial shapes, depth switches | Coulomb asymptotics (asympt.cpp), closed channels, elastic cross section |
| libcgmf/src/builtin.cpp | the Koning–Delaroche potential, the one CGMF selects | the other seventeen potentials |
| libcgmf/src/exciparm.cpp, excilambda.cpp, excipop.cpp, exciton.cpp, excinterface.cpp, evapinterface.cpp | exciton model: state densities, transition rates, occupation probabilities, pre-equilibrium and evaporation spectra, with set-up from masses and incident energy | optical model and mass tables (parameters) |
| libcgmf/src/levden.cpp, kcksyst.cpp, setup.cpp 192-237, popinit.cpp 118-121 | level densities, their connection, set-up per nucleus, spin cut-off | ldGextrapolate (unused); statGenerateLevels |
| libcgmf/src/gtrans.cpp, gdr.cpp, setup.cpp 364-392, stattrans.cpp 86-115, gampop.cpp 48-55 | gamma-ray strength functions, resonance parameters, their normalisation, the stored coefficients | the commented-out scissors and pygmy resonances |
| tools/CGMFtk/histories.py | reader, columns, `Pnu`, `Pnug`, `nubar*`, `_qA`, `nnangles`, `gammaMultiplicity`, `pfns`, `isomericRatio`, mean energies, `_qTKE`, `pfgs`, `FFangles`, `nangles`, `nFangles`, `gammaSpec` | plotting, plain getters, `summaryTable` (the totals per event computed on loading are modelled) |
| tools/CGMFtk/yields.py | constructor and reader | remaining statistics |

## Where the code and the natural claim disagree

Each is a theorem; names in brackets.

* Negative ids pass the first gate and index a table out of bounds [C02_negative_id_undefined]; yields mode skips
  the gate [C62_yields_mode_ungated].
* The time window of the first event stays in force for all later events [C09_window_refuted].
* A fragment that starts on a discrete level starts one level above the nearest one, possibly above its excitation
  energy [C34_refuted, C16_refuted].
* The draw `r = 0` selects a state of zero population [C20_zero_draw].
* The forced transition compares spins with spin indices [C21_odd_refuted].
* Photon time stamps overrun their array in long cascades [C24_time_stamps_overrun].
* A level without branches makes the cascade loop for ever [C18_dead_end].
* The spectrum array is overrun at the highest accepted energy [C32_bin_overrun, C32_cascade_overrun].
* The level-density population is not normalised when the spin cut-off is not met [C33_levden_unnormalised].
* The photon Doppler shift uses the angle to the x axis and the formula for the other frame
  [C41_angle_refuted, C41_formula_refuted]; so more than half of the photons lose energy in the laboratory
  instead of less than half [C159_refuted], and photons lose energy on average instead of gaining it [C161_refuted].
* `maxEntropy` sharing gives the collective energy to neither fragment [C42_entropy_refuted].
* The energy sharing iteration need not end [C43_not_terminating].
* The slope of the symmetric mode's width is never used, and four pre-fission neutrons read outside a four-entry
  table [C44_slope_ignored, C44_row_overrun]; the width of the symmetric mode is the same at every energy
  [C118_symmetric_width].
* For U-238 and Np-237 the weight of the symmetric mode is negative at thermal energy [C118_negative].
* A history file cut after three fragments loads, and its second total adds the light fragment of the second event to
  the heavy fragment of the first [C119_pairing]; the same for yields files with three rows [C120_pairing].
* The last number of a file cut inside a number loads with a wrong value, without any message [C119_wrong_number,
  C120_wrong_number].
* Charge yields are divided by the yield of the last charge [C46_charge_refuted].
* At the lowest tabulated energy multi-chance fission reads before the table [C50_lowest_energy_undefined]; the
  limit on the number of neutrons is replaced by the table size [C50_limit_raised].
* Pre-fission neutrons can have negative energy [C51_negative_energy], and below the barrier take none
  [C51_below_barrier].
* The angular table is not forward-backward symmetric [C52_asymmetric].
* Temperatures and level density parameters beyond the last grid point read before the array [C53_beyond].
* The toolkit: `Pnu` with a threshold raises [C55_threshold_fails], `nubarA` leaves out the largest mass [C56_refuted],
  `nnangles` pairs each neutron with itself [C57_refuted], `nubarg` with times is per event [C58_per_fragment],
  `nubarTKE` and `nubargTKE` never fill the last bin [C89_refuted], `UTKE` and `spinTKE` always raise [C89_names], `pfgs`
  is scaled to all photons whatever is cut [C90_refuted], `nangles` raises without neutrons [C91_empty], `gammaSpec`
  raises for a list of resolutions [C92_list].
* After `cgmf_clean` every further use is undefined [C59_after_clean_undefined]; so is a getter before the first event
  [C59_getter_first_undefined].
* Directions and ages of events without fission are never written [C63_cgm_directions_indeterminate].
* Some history files written by CGMF cannot be loaded [C64_unloadable].
* The kinetic energy after emission is divided by the mass before emission [C65_kepost_refuted].
* With pre-equilibrium or moving compound nuclei the fragment momenta do not carry TKE exactly
  [C66_preeq_refuted, C66_moving_refuted].
* Levels of a nucleus absent from the file: the search reads past the end [C67_absent_undefined].
* The reaction cross section is stored without the factor pi/k^2 [C74_not_cross_section].
* A radial mesh of exactly MAX_POINTS steps overruns its arrays [C75_overrun].
* A non-positive real volume depth switches off the real surface term [C76_surface_dropped].
* The end points of the Simpson sums for exciton transition rates lack the matrix element [C78_endpoints].
* A closed evaporation channel yields a spectrum of not-a-number [C79_closed].
* Without a matching energy the level densities use the spin cut-off left by an earlier nucleus in the same slot, and the scale of the initial population accumulates in it [C81_stale, C81_scale].
* The lower end of the search in ldTGconnect compares 9/(4a) with the excitation energy instead of the energy above pairing (levden.cpp:132); a trial below it has negative temperature and the connection is given up.
* A gamma transition of energy zero has an E2 coefficient of infinity times zero [C83_zero_energy]; upward transitions get the coefficient of downward ones [C83_even].
* Tabulated anisotropies are found only at multiples of 0.5 MeV (FissionFragments.cpp:4791 compares a float with a double) [C93_refuted].
* The first row of the level density file is lost (FissionFragments.cpp:4565-4571) [C94_refuted]; nuclei of mass excess zero count as missing [C94_masses_refuted].
* A missing file of pre-equilibrium angular parameters makes the program run for ever [C95_refuted], a missing anisotropy file leads to uninitialised variables [C95_anisotropy], a comment between rows of the level density file, or a value that is not a number, to an endless loop [C95_garbled, C95_value]; a level density file cut inside a row is accepted, with zeros for the missing values [C95_cut].
* The spin scaling table is overrun before its size is checked [C96_refuted].
* Of the number of rows of the pre-equilibrium file only the first digit is read [C97_refuted]; a file of comments is read for ever [C97_comments].
* Without `-n`, or with `-n 0`, rank 0 dereferences a null event in `printSummaryEvents` (cgmf.cpp:101, 318) [C98_refuted].
* `cgm` returns bin centres, one for each bin hit: photons in the same bin are merged [C102_merged], soft ones lost [C102_soft], conversion electrons counted as photons [C102_electron]; an energy at the end of the spectrum is counted out of bounds [C102_overrun], and more than 50 photons overrun the arrays of recordEmittedParticles, which nothing reads [C102_record_overrun].
* Connected level densities are not continuous when the matching energy lies below the highest discrete level [C80_jump]; the shell correction jumps at zero effective energy because the test for that limit is unreachable [C80_shell_jump].
* A last line without newline is lost from yamodel.dat and tkemodel.dat [C104_last_line]; a comment that does not fit the buffer makes the reader run for ever [C104_long_line]; a nucleus without kinetic energy row gets uninitialised coefficients [C105_unset].
* A level file cut inside a level line gives the nucleus as many copies of that level as are missing [C106_truncated].
* With fewer than ten rows in rta.dat the search for a target that is not listed reads uninitialised memory [C107_unlisted], an eleventh row is written past the table [C107_ratio_overrun], and the sign marking spontaneous fission is dropped [C107_sign]. The shipped file has ten rows.
* The total kinetic energy is not cut from below, so with positive probability the excitation energy exceeds the grid of the level density parameters and the table is read before its start [C109_undefined].
* A comment of 399 characters or more in multichancefission.dat makes the reader run for ever [C111_long_line]; a file that ends inside the block of the target leaves the missing numbers unset [C111_cut].
* With the shipped coefficients the fitted angular density of pre-equilibrium neutrons is negative in part of the range (e.g. 18 MeV incident, 17.5 MeV residual) and the table is not a distribution function: all neutrons go into a forward cone [C112_gap, C112_refuted]. Vanishing parameters send the neutron straight backward [C112_zero].
* Less than one energy bin above the barrier the only bin for the first pre-fission neutron is that of energy zero, spread over half a bin to both sides without a cut: its energy is negative at least half of the time [C115_threshold].
* In double arithmetic the index of a window starting at `lo >= 3n` can be `lo+n` [C125_overshoot]: the bin of a pre-fission neutron (FissionFragments.cpp:5457) can be `kfmax`, which leaves the fissioning nucleus below its barrier.
* In double arithmetic weights adding up to exactly one can be missed, and the forced transition is taken [C126_missed].
* The direction cosines of a particle at rest are 0/0 [C123_rest].
* All fissions of a yields file have the same number of pre-fission neutrons, drawn once when the object is made: a file of ten fissions at an energy with one fifth second-chance fission is made of second-chance fissions only with probability one fifth [C128_same_number, C128_refuted, C128_all_alike].
* A call for fission yields returns none of its memory (cgmfEvents.cpp:538-541), and deleting its object reads multiplicities that were never written [C129_yields_refuted, C129_yields_delete]; a neutron-induced target missing from multichancefission.dat that cannot emit a neutron leads to a pointer never written [C129_absent].
* The first call of `cgm` or of a fission event fixes the time window of the whole process: after an event with a window the photons of `cgm` are cut, and after `cgm` no event gets its window [C132_refuted, C132_refuted_event].
* The multiplicities above a threshold leave out energies equal to it, `nubarg` counts them [C135_refuted].
* The counters of a run are 32-bit numbers: the sum of the heavy masses overflows from 18354888 events on at the latest [C138_refuted].
* An option that is not a number as a whole is not refused: `-n 1e6` runs one event [C139_refuted].
* Seven functions declared in `cgmfEvents_capi.h` have no definition with C linkage [C140_refuted].
* `cgmCheckRange` (cgmfEvents.cpp:329) is called by nobody: `cgm` with an energy of zero or below returns the photon of the first excited level [C143_refuted].
* The reader of histories takes fragments in turn as light and heavy: when two ranks of a killed run were stopped between the fragments of an event, the joined file gives events made of two fissions; a line is printed when the masses do not add up, and reading goes on [C144_refuted].

## Properties: model, result, theorems

A theorem whose name ends in `_partial` proves part of its property; the result line says what is missing.

* **C01 Input gate accepts exactly the documented reactions** (proved). Model/Input: `checkInput` as a decision function on (Int, K). Spec = explicit table; theorem is an iff over all inputs, both directions. Result: iff over all Int ids and all energies of an ordered field
  Theorems: `C01_gate_exact`, `C01_gate_refuses`.
* **C02 Compound nucleus and the second reaction gate agree with the first** (partial). Model/Input: constructor arithmetic and `setOptions` switch; theorem: gate1 accepts => gate2 accepts and compound arithmetic. Negative ids: refuted by witness, partial for positive ids. Result: Holds for positive ids; negative ids accepted by the first gate reach an out-of-bounds table access (proved).
  Theorems: `C02_compound_partial`, `C02_negative_id_undefined`.
* **C03 Particle getters are total and bounded** (proved). Model/Event: getters over the stored arrays with an out-of-bounds outcome; theorem for all Int indices. Result: all getters, all Int indices
  Theorems: `C04_event_lists`, `C03_prefission_getters`.
* **C04 Event lists are light fragment first, then heavy, nothing lost** (proved). Model/Event: `assemble` (two loops with offset writes into an array). Theorem: result list = LF ++ HF.
  Theorems: `C04_event_lists`, `C04_decay`.
* **C05 Data directory is normalised with exactly one separator** (proved). Model/Input: `setdatapath` on lists of characters with a directory-existence oracle.
  Theorems: `C05_datapath`, `C05_datapath_exit_iff`.
* **C06 Baryon number and charge are conserved event by event** (proved). Model/Fragments: rejection sampler with random stream and fuel; theorem for every returned pair; composed with event assembly. Result: Option Systematics. The number of pre-fission neutrons is drawn once per FissionFragments object and shared by its events, as in the code; the routines that draw it and that build the yield tables are arbitrary in the theorem.
  Theorems: `C06_conservation`.
* **C07 Seeds of a parallel run tile one contiguous block** (proved). Model/Driver: seed function; bijection between (rank,i) and the block.
  Theorems: `C07_seeds_tile`, `C07_seeds_injective`.
* **C08 Each event is a function of its seed alone, so runs can be split** (proved). Model/Driver: driver loop over an abstract event generator with explicit global state; theorem by induction on the number of events. Result: per-event code is a parameter that reads only reaction, window and generator state
  Theorems: `C08_event_from_seed`, `C08_split`, `C08_parallel_equals_serial`, `C08_progress_safe`.
* **C09 Time-coincidence window applies to the event it is given to** (partial). Model/Driver: state machine for `firstcalc` and the window; negation by witness, partial. Result: The claim is false of the code (window is sticky): exact behaviour characterised, negation proved, and the claim proved for the first event.
  Theorems: `C09_window_exact`, `C09_window_refuted`, `C09_window_partial`, `C09_zero_window_is_infinite`.
* **C10 Run summary equals the mean over all events of all ranks** (proved). Model/Driver: `recordEvent` as an accumulator fold, reduction over ranks, averages; theorem against list means.
  Theorems: `C10_summary`, `C10_zero_events_undefined`.
* **C11 Run summary multiplicities and energies are mutually consistent** (proved). Same model; additive identities as fold invariants.
  Theorems: `C11_totals_consistent`.
* **C12 History file round trip** (proved). Model/Text, Model/Printer, Model/Parser: text-level printer and the Python reader on lists of characters; integers, `%.3f`-style and `%g` formatting are modelled on characters with exact rounding of rationals. Theorem: every number read back is the rounded number printed, for every list of events. Result: printing and parsing on characters, rounding of %f and %g modelled exactly on rationals
  Theorems: `C12_history_roundtrip`, `C12_exact_on_grid`.
* **C13 Yields file round trip** (proved). Model/Printer/Parser for the yields file.
  Theorems: `C13_yields_roundtrip`.
* **C14 Rank files concatenate into one readable history** (proved). Concatenation theorem on the same reader; rejection of headerless files.
  Theorems: `C14_concatenation`, `C14_headerless_refused`.
* **C15 Emitted particles are partitioned without loss** (proved). Model/Cascade: recording loop; permutation/filter theorem. Result: Every completed decay of one fragment yields a record whose neutrons and photons partition the emission history.
  Theorems: `C15_partition`.
* **C16 Decay energy balance** (partial). Model/Cascade: history loop with arbitrary populations per step; telescoping invariant. Result: Energy balance proved when the fragment starts in the continuum. A fragment that starts on a discrete level balances against the level energy, not the requested excitation energy; C16_refuted shows the natural statement is false there.
  Theorems: `C16_energy_balance_partial`, `C16_discrete_start`, `C16_refuted`.
* **C17 Emitted energies are non-negative** (proved). Invariant on the same loop with the grid model.
  Theorems: `C17_nonnegative`.
* **C18 Decay history terminates within its capacity or is refused** (proved). Fuel/relational semantics of the loops; capacity invariant; termination of discrete cascade by decreasing level index. Result: Termination and absence of undefined behaviour on usable level schemes. C18_dead_end exhibits a level scheme (a level without branches) on which the loop never ends.
  Theorems: `C18_capacity`, `C18_terminates`, `C18_memory_safe`, `C18_short_array`, `C18_dead_end`, `C18_fuel`.
* **C19 Photon ages are non-decreasing and inside the window** (proved). Invariant of the discrete cascade with log as a parameter that is non-positive on (0,1].
  Theorems: `C19_ages`, `C19_delay`.
* **C20 Next-state selection is exact inverse-CDF sampling** (partial). `mcFindNext` = first index of the flattened population list with cumulative sum >= r; interval characterisation. Result: Exact inverse-CDF selection for r > 0. For r = 0 the first listed state is chosen even with zero population (C20_zero_draw).
  Theorems: `C20_inverse_cdf`, `C20_states_once`, `C20_no_fallback`, `C20_fallback`, `C20_zero_draw`.
* **C21 Fallback transition respects its announced rule** (partial). Fallback search loops modelled; optimality lemmas. Result: Proved for nuclei with integral spins; for half-integral spins the code uses the spin index instead of the spin and C21_odd_refuted gives a counterexample.
  Theorems: `C21_forced_partial`, `C21_when_forced`, `C21_defined`, `C21_no_levels`, `C21_odd_refuted`.
* **C22 Discrete cascade follows tabulated branches only** (proved). Path invariant on the discrete cascade.
  Theorems: `C22_cascade_walk`.
* **C23 Residual nucleus has lost exactly the reported neutrons** (proved). Model/Chain and Model/Cascade: the nucleus index of a history point equals the number of neutrons emitted before it.
  Theorems: `C23_residual`.
* **C24 Per-fragment particle storage is never overrun** (partial). Writes with an out-of-bounds outcome; witness of overflow and partial under bounds. Result: Neutron storage fits. Photon time stamps overrun their 50 entries for cascades the model can reach (C24_time_stamps_overrun).
  Theorems: `C24_neutrons_fit`, `C24_storage_iff`, `C24_time_stamps_overrun`.
* **C25 Excitation energy grid is well formed** (proved). Model/Grid: `statSetupEnergyBin` over an ordered field with floor. Result: Energies of at least half a bin; below that the grid collapses to a zero entry (C25_low_energy).
  Theorems: `C25_grid`, `C25_low_energy`.
* **C26 Number of emittable neutrons is the energetic maximum** (proved). Model/Chain: `statTotalNeutrons` loop; characterisation as a maximum.
  Theorems: `C26_open_neutrons`, `C26_largest`.
* **C27 Neutron separation energies telescope** (proved). Model/Chain: `statSetupInitSystem`; telescoping sum.
  Theorems: `C27_chain`, `C27_channels`.
* **C28 Gamma branching ratios are normalised** (proved). Model/Ripl: `riplNormalizeBranch` inside `readDiscreteLevelData`; a file is a list of records. Result: The text of the file is in C106 and C141.
  Theorems: `C28_read`, `C28_normalised`, `C28_limits`.
* **C29 Level fix-up gives every kept level a way down** (proved). Model/Ripl: `riplFixTransition`, `statFixDiscreteLevels`. Result: C29_way_down assumes the transitions listed in the file go down. The fission path of the code (specMCMainFission) does not call the fill-in routine.
  Theorems: `C29_way_down`, `C29_fill`, `C29_all_known`, `C29_fill_total`.
* **C30 Hauser-Feshbach step conserves flux** (proved). Model/HF: decay step as sums over final states; flux theorem.
  Theorems: `C30_flux`, `C30_defined`.
* **C31 Gamma and neutron transitions obey selection rules** (proved). Model/HF: support theorem for added populations. Result: Exact populations for all photon and neutron transitions, except in the bypass branch where nothing couples.
  Theorems: `C31_selection`.
* **C32 Deterministic gamma cascade preserves population** (proved). Model/Gamcas: `specGammaCascade` as an induction over the levels; feeding equation solved from the top. Result: Assumes transition energies below the last half bin; at the accepted upper limit the spectrum array is overrun (C32_bin_overrun).
  Theorems: `C32_feeding`, `C32_conserved`, `C32_spectrum`, `C32_discrete`, `C32_bin`, `C32_bin_inside`, `C32_bin_overrun`, `C32_cascade_overrun`.
* **C33 Initial population is a probability distribution** (partial). Model/Popinit: the four ways of filling the initial population. Result: Proved for the single-state, entrance-channel and beta populations; the level-density population is normalised only when the spin cut-off is met below MAX_J (C33_levden_unnormalised).
  Theorems: `C33_single`, `C33_levden_partial`, `C33_levden_unnormalised`, `C33_transmission`, `C33_beta`.
* **C34 Fragment decay starts from the sampled excitation** (partial). Model/Cascade: `statStoreLevelExcite`; exact characterisation and refutation. Result: The code starts one level above the nearest level; C34_refuted shows it may start above the excitation energy.
  Theorems: `C34_start_partial`, `C34_refuted`.
* **C35 Neutron emission conserves momentum** (proved). Model/Kinematics over the reals. Result: Over the reals; sin, cos, sqrt are the Mathlib functions.
  Theorems: `C35_momentum`, `C35_defined`.
* **C36 Momentum is conserved over the whole de-excitation** (proved). Induction over the emission list.
  Theorems: `C36_chain`, `C36_record`.
* **C37 Fission kinematics conserves momentum including pre-fission neutrons** (proved). Model/Kinematics: `boost_pfn`; induction over pre-fission neutrons. Result: The mass sequence is proved without a pre-equilibrium neutron; with one, see C66.
  Theorems: `C37_momentum`, `C37_sequence`.
* **C38 Whole-event momentum balance seen through the API** (proved). Composition of C36 and C37 through the event record. Result: Photon momenta are not part of the balance in the code (no recoil).
  Theorems: `C38_event`.
* **C39 Direction cosines are unit vectors** (proved). Normalisation by the Euclidean norm over the reals. Result: A particle with zero velocity gives not-a-number, a separate outcome of the model.
  Theorems: `C39_unit`, `C03_prefission_getters`.
* **C40 Kinetic energy is split so the fragments recoil back to back** (proved). Field identity.
  Theorems: `C40_split`.
* **C41 Photon Doppler shift is relativistically consistent** (partial). Real inequality; exact statement of what the code computes. Result: Positivity, Doppler limits and the axis case are proved; the code uses the angle to the x axis and the formula for the laboratory angle, so the full statement is refuted.
  Theorems: `C41_limits_partial`, `C41_axis_partial`, `C41_angle_refuted`, `C41_formula_refuted`.
* **C42 Fission energy balance** (partial). Model/Fragments: initial conditions and sharing rule; rejection loop. Result: Exact balance in every event for the temperature-ratio rules (fixedRT, Pfactors, RTA). For maxEntropy the claim is false of the code: the collective energy is given to neither fragment (deficit characterised, witness).
  Theorems: `C42_balance_partial`, `C42_entropy`, `C42_entropy_refuted`, `C42_unknown_option`.
* **C43 Energy sharing iteration terminates** (partial). Model/Fragments: iteration; non-termination witness, sum rule partial. Result: Sum rule and consistency on termination; termination with an explicit bound on the passes when neither parameter falls with energy, or when both change slowly, rising or falling (by at most kappa times their least value per MeV, kappa txe < 2; every row of data/ldp.dat as shipped has kappa < 1/16 by a separate count that is not part of the proof); termination in general is refuted by a table for which the loop is unfinished after any number of passes.
  Theorems: `C43_result`, `C43_terminates_partial`, `C43_slopes_partial`, `C43_slopes_end_partial`, `C43_not_terminating`.
* **C44 Mass yields are normalised and symmetric about half the compound mass** (proved). Model/Yields: three-Gaussian sum with an abstract even kernel; symmetry and normalisation. Result: exp is a parameter; symmetry needs nothing about it. Findings: the slope of the symmetric width is never used, and four pre-fission neutrons read outside the four-entry table.
  Theorems: `C44_symmetric`, `C44_normalised`, `C44_range`, `C44_slope_ignored`, `C44_row_overrun`.
* **C45 Charge distribution sums to the mass yield** (proved). Model/Yields: `buildYZA` as nested sums. Result: erf is a parameter assumed monotone. The window of charges must not move between calls (true of the default method).
  Theorems: `C45_column`, `C45_no_width`, `C45_table`, `C45_moved_window`.
* **C46 Charge yields are normalised** (partial). Model/Yields: `buildYZ`; witness and exact value. Result: The code divides by the yield of the last charge only.
  Theorems: `C46_charge_partial`, `C46_total`, `C46_charge_refuted`.
* **C47 Wahl charge model is complementary** (proved). Model/Wahl: all region loops in their order, legacy assignments included; closed formula per mass, then complementarity. Result: For the mass bounds in the order the code tests (it only warns otherwise). The width is excepted at a mass exactly equal to the real boundary Bb, where the code takes the neighbouring region. exp and the coefficient vectors are parameters.
  Theorems: `C47_complementary`, `C47_formula`, `C47_defined`, `C47_energy`, `C47_limits`.
* **C48 Fragment sampling never returns a pair with zero yield** (proved). Model/Fragments: sampler; postcondition of acceptance. Result: Also the exact probability that the first attempts return a given mass and charge, on Lebesgue measure.
  Theorems: `C48_heights`, `C48_range`, `C48_no_zero`, `C48_probability`.
* **C49 Average TKE is preserved by the rescaling** (proved). Model/Yields: weighted sums.
  Theorems: `C49_average`, `C49_symmetric`, `C49_table_overrun`.
* **C50 Multi-chance fission probabilities form a distribution** (partial). Model/Prefission: table look-up, interpolation, limit, normalisation, sampler; acceptance law on Lebesgue measure. Result: The distribution and sampling are proved for every energy strictly above the lowest tabulated one; at the lowest energy itself the interpolation reads before the table (C50_lowest_energy_undefined). The energetic limit on the number of neutrons is replaced by the size of the table when all probabilities up to it are positive (C50_limit_raised). The text of the file is in C111.
  Theorems: `C50_interpolated_partial`, `C50_distribution_partial`, `C50_number`, `C50_probability`, `C50_lowest_energy_undefined`, `C50_limit_raised`.
* **C51 Pre-fission neutrons leave a consistent fissioning nucleus** (partial). Model/Prefission: neutron loop with bins, smearing and residual excitation energy. Result: Balance proved for the excitation handed on; the smeared kinetic energy can be negative (C51_negative_energy) and below the barrier no energy is removed although the neutrons are counted (C51_below_barrier).
  Theorems: `C51_energy_partial`, `C51_nucleus`, `C51_negative_energy`, `C51_below_barrier`.
* **C52 Fragment angular distribution is a proper CDF and sampled directions are valid** (proved). Model/Fragments `angular` with the sampler of Model/Kinematics. Result: Finding: the table is not forward-backward symmetric although the density is; the exact asymmetry is proved.
  Theorems: `C52_table`, `C52_sampled`, `C52_isotropic`, `C52_asymmetric`.
* **C53 Tabulated temperature and level-density interpolation is safe and bounded** (proved). Model/Fragments: index search and linear interpolation. Result: At or above the last grid point the read before the array is proved for every table.
  Theorems: `C53_inside`, `C53_nodes`, `C53_beyond`.
* **C54 Initial fragment spin and parity are valid quantum numbers** (proved). Model/Fragments: spin table and rejection loop. Result: A vanishing spin parameter (division by zero in the code) is a separate undefined outcome and excluded by hypothesis.
  Theorems: `C54_distribution`, `C54_spin`, `C54_parity`, `C54_probability`.
* **C55 Multiplicity distributions of the toolkit are normalised and consistent with the mean** (partial). Model/Toolkit: `Pnu`, `Pnug`, `nubartot`, `nubargtot`. Result: Without a neutron threshold all is proved; with one Pnu raises for every history of two or more events (proved).
  Theorems: `C55_neutrons`, `C55_photons`, `C55_photons_all`, `C55_threshold_fails`.
* **C56 Toolkit mass-dependent averages cover every mass** (partial). Model/Toolkit: `_qA`, `nubarA`, `nubargA`. Result: nubarA, TKEA, UA and spinA leave out the largest mass: exact deficit proved and the claim refuted; nubargA is complete.
  Theorems: `C56_mass_partial`, `C56_refuted`, `C56_photons`, `C56_tke_partial`, `C56_columns_partial`.
* **C57 Neutron-neutron angles use distinct pairs** (partial). Model/Toolkit: `nnangles`, nested loops. Result: The lists contain each pair once and in addition every neutron with itself.
  Theorems: `C57_pairs_partial`, `C57_refuted`, `C57_count`.
* **C58 Photon multiplicity versus time is monotone and reaches the total** (proved). Model/Toolkit: time-cut counting. Result: With an age per photon. nubarg with a time window is normalised per event, not per fragment (proved).
  Theorems: `C58_time`, `C58_monotone`, `C58_per_fragment`.
* **C59 C interface is memory safe under every call sequence** (proved). Model/Lifecycle: heap state machine with use-after-free/double-free/null outcomes; theorem over all call sequences. Result: Safe histories characterised; misuse proved to be undefined behaviour.
  Theorems: `C59_safe_histories`, `C59_after_clean_undefined`, `C59_getter_first_undefined`.
* **C60 Lifetimes of events in the C++ interface** (proved). Model/Lifecycle: shared arrays state machine. Result: Exact iff for all well-formed programs; driver leak-free for every event list.
  Theorems: `C60_safe_iff`, `C60_after_cleanup_undefined`, `C60_driver_no_leak`, `C60_driver_no_events`.
* **C61 Random generator reproducibility** (proved). Model/Driver: generator object with seed and copy semantics. Result: engine abstract
  Theorems: `C61_stream_from_seed`, `C61_constructor_seed_ignored`, `C61_install_copies`, `C61_no_generator_fails`.
* **C62 Yields mode refuses the same reactions as history mode** (partial). Model/Input: the path through `FissionFragments` without the first gate. Result: False of the code: yields mode skips the gate; what is accepted is characterised.
  Theorems: `C62_yields_mode_partial`, `C62_yields_mode_ungated`.
* **C63 Direction and age getters of non-fission events** (partial). Model/Event: the record assembled for events without fission. Result: False of the code (negation proved): directions and ages are never written for cgm events.
  Theorems: `C63_cgm_directions_indeterminate`, `C63_cgm_event`.
* **C64 Every history file written by CGMF can be loaded by the toolkit** (partial). Model/Parser with the shape rules of numpy object arrays. Result: False of the code: exact iff proved, refused files exhibited for every size.
  Theorems: `C64_loadable_iff`, `C64_unloadable`.
* **C65 Kinetic energy after emission belongs to the nucleus after emission** (partial). Model/Kinematics `fragTail`. Result: The code divides by the mass before emission.
  Theorems: `C65_kepost_partial`, `C65_kepost_refuted`.
* **C66 Fragment momenta carry the total kinetic energy** (partial). Model/Kinematics `boostPfn`, `split`; exact identity, deviations characterised. Result: Exact for a nucleus at rest; otherwise the exact deviation is proved.
  Theorems: `C66_tke`, `C66_at_rest`, `C66_additive_partial`, `C66_momenta_partial`, `C66_preeq_refuted`, `C66_moving_refuted`.
* **C67 Looking up the levels of a nucleus** (partial). Model/Ripl `lookup`. Result: The fallback for absent nuclei is undefined behaviour for every file.
  Theorems: `C67_lookup_partial`, `C67_absent_undefined`.
* **C68 Time histogram of photons counts each photon once** (proved). Model/Toolkit `gammaMultiplicity` with `np.histogram`. Result: Edges increasing, as numpy requires.
  Theorems: `C68_counts`, `C68_bins`.
* **C69 The prompt neutron spectrum of the toolkit is normalised** (proved). Model/Toolkit `pfns`. Result: With no neutron on the grid the result is NaN, outside the statement.
  Theorems: `C69_normalised`, `C69_neutrons`, `C69_value`.
* **C70 Isomeric ratios are probabilities** (proved). Model/Toolkit `isomericRatio`.
  Theorems: `C70_ratio`, `C70_absent`.
* **C71 Neutron transmission coefficients are probabilities** (proved). Model/Optical: `internal`, `smatrix`, `matching`, `tranOf`, `omCalc`. Complex arithmetic by hand; scaling by a complex constant commutes with the whole calculation. Result: Exact arithmetic; a coefficient whose computation divides by zero has the outcome ub.
  Theorems: `C71_probability`, `C71_value`, `C71_matching`, `C71_inward`, `C71_start`.
* **C72 The optical potential only absorbs** (proved). Model/Optical: `fgLoop`. Invariant: every three neighbours satisfy the Fox-Goodwin relation; flux identity and phase invariance by induction over the mesh.
  Theorems: `C72_flux_balance`, `C72_no_source`, `C72_complete`, `C72_real_potential`.
* **C73 Outer wave functions have unit Wronskian and are always found** (proved). Model/Optical: `gLoop`, `fLoop`, `search`, `external`. The Casoratian of the upward and downward solutions is constant; the normalisation vanishes exactly when the continued irregular solution does. Result: Starting values come from cos and sin (neutrons) or from the Coulomb asymptotics, which are inputs.
  Theorems: `C73_wronskian`, `C73_no_exit`, `C73_returns`, `C73_low_energy`, `C73_order`.
* **C74 The stored reaction cross section is the cross section** (partial). Model/Optical: `partialWaves`, `omCalc`. Invariant of the loop over partial waves. Result: The factor pi/k^2 is commented out in the code; everything else is proved.
  Theorems: `C74_reaction_partial`, `C74_not_cross_section`.
* **C75 The radial mesh fits its arrays and centres the matching point** (partial). Model/Optical: `meshPoints`, `fillArr`, `meshFill`, `lagrange`. Result: A mesh of exactly 300 steps overruns the arrays (proved).
  Theorems: `C75_mesh_partial`, `C75_overrun`, `C75_derivative`.
* **C76 Depth switches leave the other terms of the potential alone** (partial). Model/Optical: `clampOmp`, `radialMean`, `centralField`. The bit masks are checked for all 256 form numbers and both outcomes of each comparison. Result: The real surface term is lost when the real volume depth is not positive (proved); the imaginary part is complete.
  Theorems: `C76_absorptive`, `C76_forms_partial`, `C76_surface_dropped`.
* **C77 Exciton occupation probabilities solve the master equation** (proved). Model/Exciton: `inflow`, `sweep`, `occupation`. Each pass makes one more level `i+j` exact, so pass 12 converges; iterates from zero increase, which turns the relative-change test into an error bound. Result: Exact arithmetic.
  Theorems: `C77_converges`, `C77_unique`, `C77_solution`, `C77_nonneg`.
* **C78 Exciton state densities and transition rates** (partial). Model/Exciton: `stateDensity`, `finiteWell`, `simpson`, `lambdaPlusZ` ... An integral with reversed limits is zero because the residual lies below its Pauli energy. The pairing correction is bounded over the reals with `Real.rpow`. Result: Signs, ranges and table bounds are proved; the weights of the Simpson sum are refuted (C78_endpoints).
  Theorems: `C78_in_table`, `C78_table_end`, `C78_pairing`, `C78_pauli`, `C78_density`, `C78_matrix`, `C78_rates`, `C78_single`, `C78_endpoints`.
* **C79 Pre-fission neutron spectra are probability distributions** (partial). Model/Exciton: `excSpectrum`, `excNormalise`, `evapSpectrum`. Result: A closed evaporation channel divides zero by zero (C79_closed).
  Theorems: `C79_exciton`, `C79_emission`, `C79_evaporation`, `C79_closed`.
* **C80 Constant temperature and Fermi gas level densities join smoothly** (partial). Model/LevDen: `tgTemp`, `tgShifts`, `tgLoop`, `tgConnect`, `txLoop`, `tExtrapolate`. Induction over the passes of the bisection; the integral by the fundamental theorem of calculus, the slope by differentiating the logarithm of the Fermi gas. Result: Exact real arithmetic. Continuity is false when the matching energy is below the highest discrete level (C80_jump) and proved otherwise. The logarithmic slope is stated where the spin cut-off is above its floors.
  Theorems: `C80_connect`, `C80_continuous_partial`, `C80_joined_partial`, `C80_jump`, `C80_extrapolate`, `C80_joined_extrapolate`, `C80_below`, `C80_parameter`, `C80_shell`, `C80_shell_jump`.
* **C81 Stored level densities are positive, parity symmetric and belong to the nucleus** (partial). Model/LevDen: `levelDensity`, `densityTable`, `popinitCut`, `spinDistribution`. Result: History independence is proved with a matching energy and refuted without one. The refutation starts from a structure with matching energy zero; that the shipped data lead to one is not shown (with the rows of data/kcksyst.dat and a nucleus without known excited levels they do not for A from 60 to 180, by a separate numerical count).
  Theorems: `C81_densities`, `C81_positive`, `C81_history_partial`, `C81_stale`, `C81_scale`, `C81_spin_cut`.
* **C82 Level density parameters are the nucleus's own and temperatures are positive** (proved). Model/LevDen: `getKck`, `setup`, `kckTemperature`. Result: The temperature is positive for shell corrections below 10 MeV. A row whose shell correction is exactly zero is treated as absent.
  Theorems: `C82_found`, `C82_temperature`.
* **C83 Gamma-ray transmission coefficients follow the strength functions** (proved). Model/Gtrans: `profile`, `standard`, `generalized`, `transmission`, `setupGdr`, `m1norm`; spec in Spec/Gtrans. Result: Exact real arithmetic. Resonances are set up for the first nucleus only (specmc.cpp:143, 244) and used for its residuals.
  Theorems: `C83_E1`, `C83_M1_E2`, `C83_nonneg`, `C83_setup`, `C83_temperature`, `C83_zero_energy`, `C83_even`.
* **C84 A decay step conserves probability with the computed coefficients** (proved). Composition of C25, C30, C71, C81 and C83. Result: Assumes a positive level density parameter, a positive temperature and a matching energy above the pairing energy (C80, C82 give them) and levels not above the last one.
  Theorems: `C84_gamma`, `C84_flux`.
* **C85 Fragments, spins and neutron numbers are sampled from their distributions** (proved). Spec/Law (probability of a result for independent uniform numbers), Proofs/Law (law of sequencing), Proofs/Rejection (law of a rejection loop). Result: The generator is idealised as independent numbers uniform on [0,1); exact real arithmetic. C50_limit_raised states when the number of neutrons is not what the energy allows.
  Theorems: `C85_mass_charge`, `C85_ends`, `C85_pair`, `C85_spin`, `C85_number`, `C85_bin`.
* **C86 Discrete cascades follow the branching ratios and half-lives** (proved). Spec/Branching, Proofs/Reach (law of a running-sum selection), Proofs/Walks, Props/LawCascade. Result: Paths without a coincidence window or with levels of zero half-life; the idealised generator; branching ratios that add up to one (C28 states what the reader guarantees).
  Theorems: `C86_path`, `C86_halflife`.
* **C87 A decay step follows the Hauser-Feshbach formula** (proved). Spec/Widths, Proofs/Widths, Props/LawStep; uses C20, C30 and C31. Result: Idealised generator; transmission coefficients and level densities are non-negative parameters (C71, C81, C83 for the library's own). A step without any open transition goes through the bypass and is outside the statement.
  Theorems: `C87_branching`, `C87_competition`.
* **C88 Mean energies from a history are the average energies per event** (proved). Model/Toolkit2, Spec/Toolkit2, Props/Toolkit2; uses C55. Result: Histories whose recorded numbers are those of the listed particles (C13, C64 for files written by CGMF). Rational arithmetic.
  Theorems: `C88_neutrons`, `C88_photons`, `C88_split`, `C88_each`, `C88_range`.
* **C89 Averages against total kinetic energy cover all events** (partial). Model/Toolkit2, Props/Toolkit2: induction over the rows. Result: All rows but the last are proved; the last is always zero and the claim refuted; UTKE and spinTKE raise for every history.
  Theorems: `C89_neutrons_partial`, `C89_photons_partial`, `C89_refuted`, `C89_names`.
* **C90 The photon spectrum integrates to the number of photons asked for** (partial). Model/Toolkit2, Props/Toolkit2; uses C69. Result: The integral is the multiplicity of all photons, whatever the threshold and the window; refuted for every history with a photon that is cut.
  Theorems: `C90_integral_partial`, `C90_refuted`.
* **C91 Angles computed from a history belong to the right particles** (proved). Model/Toolkit2, Props/Toolkit2: permutation of flattened lists, Cauchy-Schwarz. Result: Real square root; directions are as in the file, so their length is one only up to the digits printed.
  Theorems: `C91_neutrons`, `C91_empty`, `C91_fragments`, `C91_between`.
* **C92 Photon gates select exactly the matching fragments** (proved). Model/Toolkit2, Props/Toolkit2: induction over the gates. Result: Arguments of one dimension or numbers.
  Theorems: `C92_gates`, `C92_refused`, `C92_list`.
* **C93 Tabulated anisotropies are used at the incident energy** (partial). Model/Aniso, Proofs/Aniso, Props/Aniso: rounding error of binary floating point, kernel evaluation over the 2001 keys of the shipped grid. Result: Proved for multiples of 0.5 MeV and below the grid; refuted for all other grid energies with IEEE single and double arithmetic (round to nearest even).
  Theorems: `C93_partial`, `C93_refuted`, `C93_ignored`, `C93_default`, `C93_steps`.
* **C94 Data files are read back completely** (partial). Model/Data, Spec/Data, Proofs/Data, Props/Data: induction over lines, rows and cells of a stream. Result: Temperatures, masses and deformations proved for all well-formed files; level densities without the first row, which is lost. Conversion of a word to a number is a parameter.
  Theorems: `C94_temperatures`, `C94_partial`, `C94_refuted`, `C94_masses`, `C94_masses_refuted`, `C94_deformations`.
* **C95 A missing or damaged data file stops the program** (partial). Model/Data, Props/Data: invariants of loops that never end. Result: Six readers stop; the reader of the angular parameters never returns, the anisotropy reader uses uninitialised variables, a level density file with something else in the place of a nucleus or of a value never returns, one cut inside its last row is accepted with zeros (C95_cut, C95_value: characters of the file, conversions of the C library).
  Theorems: `C95_partial`, `C95_local`, `C95_refuted`, `C95_anisotropy`, `C95_garbled`, `C95_cut`, `C95_value`.
* **C96 The spin strength is the tabulated line** (partial). Model/Data, Props/Spin: induction over lines. Result: Files of at most 15 rows; longer ones overrun the table.
  Theorems: `C96_partial`, `C96_read`, `C96_user`, `C96_refuted`.
* **C97 The pre-equilibrium fraction follows the file** (partial). Model/Data, Props/Spin: induction over rows. Result: Files whose count has one digit; with ten rows only the first is known. exp is a parameter; the cut at zero is in the caller (C50).
  Theorems: `C97_partial`, `C97_refuted`, `C97_comments`.
* **C98 The command line sets exactly what it says** (partial). Model/Cmd, Spec/Cmd, Props/Cmd: induction over the command line. Result: Scanning and settings proved for every command line; a run without -n (optional in the manual) is undefined behaviour on rank 0.
  Theorems: `C98_settings`, `C98_order`, `C98_partial`, `C98_required`, `C98_refuted`.
* **C99 Kinetic energies are normally distributed** (proved). Model/Gauss, Spec/LawIn, Proofs/Pairs, Proofs/Gauss, Props/Gauss: rejection over pairs, area of the disc and polar coordinates (change of variables). Result: Real log and square root; independent uniform numbers in place of the generator. The comment in Yields.cpp says mean 1; it is 0.
  Theorems: `C99_gaussian`, `C99_ends`, `C99_tke`, `C99_normaldist`.
* **C100 Emission is isotropic** (proved). Spec/Isotropy, Proofs/Isotropy, Proofs/Directions, Props/Isotropy: spherical coordinates from polar coordinates twice, volume of a cone, independence of consecutive pairs by induction. Result: Reals; twopi is the exact circle; independent uniform numbers in place of the generator; energies positive.
  Theorems: `C100_particles`, `C100_neutron`, `C100_fragments`, `C100_rotation`, `C100_cosine`.
* **C101 The neutron optical potential is well formed for every fragment** (proved). Model/KD, Proofs/KD, Props/KD: real estimates of depths and geometry, comparison of the Thomas and the Woods-Saxon form, tables by induction. Result: Reals with real exp, log and pow; neutrons only (no Coulomb field).
  Theorems: `C101_depths`, `C101_mesh`, `C101_tiny`, `C101_outside`, `C101_absorbs`, `C101_no_source`.
* **C102 The single-nucleus interface returns the emitted particles** (partial). Model/CgmApi, Spec/CgmLines, Proofs/CgmApi, Props/CgmApi: induction over the history and over the bins, sorted bins as a permutation of the emitted energies. Result: Exact content of the returned lists proved for all decays; the correspondence with the emitted particles holds when all energies of a kind lie in different bins, none below half a bin, without electrons, at most 30 of each.
  Theorems: `C102_lines`, `C102_sound`, `C102_partial`, `C102_merged`, `C102_soft`, `C102_electron`, `C102_overrun`, `C102_record`, `C102_record_overrun`.
* **C103 The initial spin of the single-nucleus interface follows the level density** (proved). Model/CgmApi, Model/Popinit, Props/CgmApi: law of a running-sum selection. Result: Independent uniform numbers in place of the generator; the spin distribution is a parameter.
  Theorems: `C103_start`, `C103_levden`.
* **C104 Yield parameters come from the nucleus's own row** (partial). Model/YieldFiles, Spec/YieldFiles, Proofs/YieldFiles, Props/YieldFiles: invariant of the reading loop by induction over the lines; non-termination for every number of iterations. Result: Files whose lines fit the buffer and end with a newline, without blank line before the first row of mass yields; the other cases are refuted. Conversion of words to numbers is a parameter.
  Theorems: `C104_mass_partial`, `C104_tke_partial`, `C104_spontaneous`, `C104_missing_file`, `C104_last_line`, `C104_long_line`.
* **C105 The average kinetic energy follows the row of the nucleus** (partial). Model/YieldFiles, Props/YieldFiles: case analysis; gluing of two affine functions. Result: Fallback proved when the compound nucleus has a row; otherwise the result is undefined. The cube root of the mass is a parameter of the systematics.
  Theorems: `C105_own`, `C105_fallback_partial`, `C105_unset`, `C105_first_chance`, `C105_continuous`, `C105_peak`, `C105_viola`.
* **C106 Levels of every nucleus are read back from the level file** (partial). Model/LevelText, Spec/LevelText, Proofs/LevelText, Props/LevelText: refinement of the text reader to the record model by induction over the items of the file; a stream at its end returns the same line for ever. Result: Proved for every well-formed file and for files cut after a line; refuted for a file cut inside its last level line. atoi and atof are parameters; what is made of the records is C28, C29 and C67.
  Theorems: `C106_text`, `C106_levels`, `C106_missing_file`, `C106_short`, `C106_truncated`.
* **C107 Level density parameters and temperature ratios are read back** (partial). Model/LevelText, Spec/RtaTable, Proofs/RtaTable, Props/RtaTable: induction over lines and over the words of a row. Result: Parameters proved for all well-formed files; ratios for listed targets, and for all targets with exactly ten rows as in the shipped file. atoi and atof are parameters.
  Theorems: `C107_parameters`, `C107_parameters_overrun`, `C107_missing_file`, `C107_ratio_partial`, `C107_unlisted`, `C107_ratio_overrun`, `C107_sign`.
* **C108 Initial spins follow the spin parameter and grow with the spin strength** (proved). Model/SpinPar, Proofs/SpinPar, Proofs/OneDraw, Props/SpinPar: relation between tables with and without stored defaults, preserved by every request; product formula for sequenced draws; monotone likelihood ratio summed over pairs of spins. Result: Reals with real exp; A^(5/3) is a parameter; independent uniform numbers in place of the generator; total excitation energy not negative (otherwise the pair is drawn again, C63).
  Theorems: `C108_parameter`, `C108_history`, `C108_scaling`, `C108_joint`.
* **C109 The initial conditions of a pair have the intended joint law** (partial). Proofs/Kernel, Proofs/KernelMore, Proofs/InitialLaw, Spec/Initial, Props/Initial: partial measurability of random programs jointly in parameter and stream, sequencing as integration against the law of the first program, one pass of the loop as a mixture, induction over passes, limit of the geometric series. Result: Temperature-ratio sharing, kinetic energies at which sharing and spin parameters are defined; momenta defined for all kinetic energies from a threshold on, shown without pre-fission neutrons and for isotropic fission. 'Returned with probability one' is refuted: the kinetic energy is not cut from below.
  Theorems: `C109_joint`, `C109_tke_partial`, `C109_pair`, `C109_undefined`, `C109_momenta`.
* **C110 Neutron and photon spectra of a decay step** (proved). Spec/Spectrum, Proofs/Exchange, Proofs/ForcedLaw, Proofs/SelectGen, Proofs/StepLaw, Proofs/PassLaw, Props/Spectrum: exchangeability of independent draws (each of n is the largest with probability 1/n), selection by a walk followed by an independent continuation, a weighted sum over the table of populations. Result: Reals; independent uniform numbers in place of the generator. The spin compared with the levels in a forced transition is the spin index (C21 shows that this is half a unit low for nuclei of odd mass). Ending needs a level within 100 units of spin.
  Theorems: `C110_pass`, `C110_neutron`, `C110_photon`, `C110_level`, `C110_forced`, `C110_bin`, `C110_ends`.
* **C111 Multi-chance fission probabilities belong to the target** (partial). Model/ChanceText, Spec/ChanceText, Proofs/ChanceText, Props/ChanceText: induction over the items of the file and the numbers of a block, on top of the text layer of C94-C107. Result: Proved for every well-formed file (and energies inside the table, C50); refuted for long comments and files that end too early. Conversion of words to numbers is a parameter.
  Theorems: `C111_own`, `C111_distribution`, `C111_absent`, `C111_missing`, `C111_long_line`, `C111_cut`.
* **C112 Pre-equilibrium neutrons follow the fitted angular distribution** (partial). Model/PreeqAngle, Props/PreeqAngle: the scan stops before the first row above the random number; sums of an odd function over the rows; sinh x against x. Result: Reals with real sinh. Range and exact outcome for every table; the fitted law where the fit is not negative; refuted for the shipped coefficients at 18 MeV.
  Theorems: `C112_defined`, `C112_sampled`, `C112_law_partial`, `C112_forward`, `C112_isotropic`, `C112_zero`, `C112_gap`, `C112_refuted`.
* **C113 Energy and multiplicity correlations of a whole continuum decay** (proved). Spec/Path, Proofs/StepKernel, Proofs/PathLaw, Proofs/WalkLaw, Proofs/ChainOpen, Proofs/DecayLaw, Props/Path: one pass replaced by a selection from a table whose law is known (simulation on numbers between zero and one), joint measurability in starting point and numbers, induction over the pattern with the law of a sequence; an invariant of reachable points for chains without dead ends; disjoint union over sequences of kinds. Result: Reals; independent uniform numbers in place of the generator. Transmission coefficients and densities are parameters, measurable in the energy, and every continuum state has an open photon channel (C84 proves the coefficients of the code positive).
  Theorems: `C113_pattern`, `C113_chained`, `C113_kinds`, `C113_multiplicity`.
* **C114 Continuum decay and discrete cascade combine independently** (proved). Proofs/DecayLaw, Props/Path: the numbers used by the continuum part and the rest of the stream are independent; the history splits in one way into entries made in the continuum and at levels. Result: As C113; branching ratios add up to one; no coincidence window, or levels of zero half-life in the last nucleus; decays that start in the continuum (those that start on a level are C86).
  Theorems: `C114_history`, `C114_decay`.
* **C115 Energies of pre-fission neutrons have the intended joint law** (partial). Spec/PrefissionLaw, Proofs/PreLaw, Props/PrefissionLaw: the event is marked inside the program (bind with a test), which turns it into a law over finitely many bins; rejection loops with a continuation; induction over the neutrons. Result: Reals; independent uniform numbers in place of the generator. Spectra are parameters, non-negative and not identically zero over the open bins; positivity of the energies also needs them to vanish at energy zero, as those of the code do. Refuted less than one bin above the barrier. The first neutron uses only bins strictly above the barrier, later ones also a bin exactly at it: this difference is part of the law proved.
  Theorems: `C115_joint`, `C115_positive`, `C115_ends`, `C115_event`, `C115_first_chance`, `C115_threshold`.
* **C116 The decay of a fragment does not depend on what was decayed before** (proved). Spec/Fresh, Proofs/Stale, Props/Fresh: two runs related by a simulation (same history so far, same time stamps of particles that left a level, any spin ranges); a larger spin range adds only cells without population, which the selection skips; the energies left in the nuclei are never read because all counted channels are open. Result: Exact arithmetic, any ordered field. The state that survives a decay in the model is the history array, the time stamps, the largest spin index of each nucleus and its energy; transmission coefficients and level densities are parameters, the same in both programs (C81_stale shows that without a matching energy the level densities do keep a spin cut-off of an earlier nucleus).
  Theorems: `C116_fragment`, `C116_run`.
* **C117 The decays of an event are independent** (proved). Spec/Runs, Proofs/Runs, Props/Runs: a decay is local (reads its random numbers from the front and ignores the rest); the set of sequences on which it ends after exactly k numbers is measurable and depends on these numbers only; such sets are convolved, one decay after the other, by induction over the list. Result: Reals; independent uniform numbers in place of the generator. Conditions of C113/C114 for every fragment: chains without dead ends, proper level schemes, measurable transmission coefficients, no coincidence window or zero half-lives, room in the arrays. The initial energies and spins of the fragments are given (their law is C109).
  Theorems: `C117_events`, `C117_pair`.
* **C118 The fission modes have the documented weights, means and widths** (partial). Props/Modes: logistic functions are compared through their exponents, so the sign of the symmetric weight becomes a linear inequality in the energy, checked for every shipped row. Result: Reals with the real exponential. Weights, means, widths and the shift for every row; the sign of the symmetric weight decided exactly and for all shipped rows; refuted for the symmetric width and for two shipped rows at thermal energy.
  Theorems: `C118_weights`, `C118_symmetric_sign`, `C118_symmetric_width`, `C118_shift`, `C118_shipped_partial`, `C118_negative`, `C118_monotone`.
* **C119 A history file cut short is refused or read as its first fragments** (partial). Model/Load, Spec/Cut, Proofs/Cut, Props/Cut: the lines of a cut text are the first lines and a part of the next; splitting a part of a line gives the first tokens and a part of the next; the reader then fails or returns what it returns on the complete file up to there, by induction over fragments and particles. Result: Texts are lists of characters, numbers rationals. Every cut of every rank file; refuted for the pairing of three fragments and for the last number, with witnesses.
  Theorems: `C119_cut_partial`, `C119_between`, `C119_totals`, `C119_complete`, `C119_pairing`, `C119_wrong_number`.
* **C120 A yields file cut short is refused or read as its first rows** (partial). Props/CutYields: the same relation between tokens, with the check of the shape by np.loadtxt. Result: np.loadtxt is modelled as splitting at blanks, conversion, and refusal of rows of unequal length; comments are not modelled. Every cut of every file; refuted for three rows and for the last component, with witnesses.
  Theorems: `C120_cut_partial`, `C120_totals`, `C120_complete`, `C120_pairing`, `C120_wrong_number`.
* **C121 The exciton model gives a spectrum for every fissioning system** (proved). Model/ExcitonRun, Spec/ExcitonRun, Proofs/ExcitonRun, Props/ExcitonRun: bounds on pairing energy, well depth and critical exciton number from the masses give the sign conditions of the exciton model (C78); the emission rate of the first configuration gives the populated bins. Result: Reals with the real square root and exponential. Masses and optical model are parameters; the incident energy leaves an excitation energy between half a bin and 38 MeV and fits the grid. That the spectrum is not zero is proved for excitation energies above the pairing energy plus 38.4/N MeV.
  Theorems: `C121_spectrum`, `C121_populated`.
* **C122 Pre-fission neutrons drawn from the spectra of the code have positive energies** (proved). Model/PreSpectra, Spec/PreSpectra, Props/PreSpectra: on the grids of two neighbouring nuclei the energy in bin k0+j is j bins, so every evaporation spectrum vanishes in the bin of the parent and is positive in the next; the laws of C115 then apply. Result: Reals; independent uniform numbers in place of the generator. Optical model and level density are parameters with positive values; the barrier is at least one bin; the grids are those of the set-up. The last condition (more than one bin above the barrier) is needed, see C115_threshold.
  Theorems: `C122_joint`, `C122_evaporation`, `C122_preequilibrium`.
* **C123 Direction cosines are numbers in range, in double arithmetic** (proved). Spec/Float, Model/Float, Proofs/Float, Props/Float: roundings to nearest are monotone, fix the numbers of the format and have relative error 2^-53; the rounded root of the rounded square of a double is not smaller than its absolute value, so the length dominates each component. Result: Double arithmetic: every operation rounded to a nearest number of 53 bits with exponent at least -1074, any rule for ties; no overflow, no fused or extended operations. A component of at least 2^-400 is assumed.
  Theorems: `C123_range`, `C123_norm`, `C123_rest`.
* **C124 Drawn directions are never "not a number", in double arithmetic** (proved). Props/FloatDirection: monotonicity gives cosines in [-1,1]; in the first and last interval of a table the interpolation is exact enough to stay in range, between them the margin to one exceeds the error; the table built by the code from the coefficient meets the conditions. Result: Double arithmetic as in C123. Library sine and cosine are parameters with values in [-1,1]; the anisotropy coefficient is between 1/2 and 4 (shipped: 1 to 1.84). The table of pre-equilibrium neutrons is covered by C124_table where its rows rise by at least 2^-20.
  Theorems: `C124_isotropic`, `C124_sine`, `C124_fragment`, `C124_emission`, `C124_table`, `C124_anisotropic`.
* **C125 Drawn indices stay in their tables, in double arithmetic** (partial). Props/FloatIndex: a double below one is at most 1-2^-53, and the rounded product with n stays one unit below n; the sum with the start of the window is exact below the next power of two and is rounded up beyond it. Result: Double arithmetic as in C123; random numbers are doubles in [0,1). Indices stay in the table for windows that do not cross a power of two; refuted for windows starting at three times their length, with the largest random number as witness.
  Theorems: `C125_index`, `C125_window`, `C125_charge`, `C125_mass`, `C125_bounds`, `C125_overshoot`.
* **C126 Rounding changes the choice of a state by at most N 2^-51** (partial). Props/FloatSum: running sums of non-negative weights are monotone after rounding, their error is at most 2^-51 per entry, and adding zero is exact. Result: Double arithmetic as in C123; total weight at most 5/4. Probabilities as in C149. Intervals within N 2^-51 of the exact ones; refuted as an equality by seventeen weights adding up to one.
  Theorems: `C126_interval`, `C126_zero`, `C126_fallback`, `C126_chance`, `C126_chance_none`, `C126_missed`.
* **C127 A whole event has the product of the intended probabilities** (proved). Proofs/Emit, EmitLaw, WholeLaw, Whole: for every fragment the set of sequences with the decay asked for followed by the directions asked for, measurable in the energy; the event agrees with a watching program made of these sets on all sequences inside (0,1); integration of the watching program over the law of the loop over kinetic energies (a product with a kernel). Proofs/Again: passes repeated until one succeeds, by induction over the passes with null-measurable sets and the shift of the sequence, which preserves the measure. Result: Reals; independent uniform numbers in place of the generator. One fissioning nucleus with its tables, the conditions of C109 (Setting) and of C114 and C117 (Ready), arrays that hold the particles, fragments that cannot reach the speed of light; over the set of kinetic energies the chain of nuclei of each fragment is the same (split the set otherwise). Sampling again when a fragment has exactly no energy multiplies by a geometric series (C127_again), in the limit the probability given that no pass fails. The direction cosines computed at the end without random numbers are left out (C35 to C41, C123).
  Theorems: `C127_event`, `C127_fragment`, `C127_again`, `C127_limit`, `C127_seen`.
* **C128 The fissions of a yields file are independent** (partial). Proofs/Session, SessionEvent: the probability of a list of observed fissions is the product for fixed choices (induction over the list), summed over the choices once for one object and for each fission for many; measurability of all properties of pair, kinetic energy, energies, spins and parities. Result: Reals; independent uniform numbers in place of the generator. Tables and energies per choice are parameters (the properties of a fission asked for must be observable, shown for tables that depend on a discrete choice). With one object per fission: independent. For a yields file: independent only given the choices of the constructor; refuted as stated, with files of two kinds of fission having probability zero.
  Theorems: `C128_same_number`, `C128_start`, `C128_independent`, `C128_one_object_partial`, `C128_each`, `C128_refuted`, `C128_all_alike`.
* **C129 Events return the memory they take** (proved). Proofs/Memory: ownership of blocks with frames (what a call starts with, what it leaves, others untouched), rules for sequencing, new and delete; each function of the call tree; induction over the events. Result: Every array on the path of an event is a block of its own; contents are not represented, what decides the branches (data, random numbers, energies) is an arbitrary choice. Memory exhaustion is not modelled. The last two theorems refute the claim for fission yields (cgmfYields).
  Theorems: `C129_program`, `C129_bounded`, `C129_peak`, `C129_stops`, `C129_absent`, `C129_yields_refuted`, `C129_yields_delete`.
* **C130 Different events draw different random numbers** (proved). Proofs/Twister: every step of the engine can be undone (shifts by induction over the bits, the multiplier by its inverse modulo 2^32, the matrix by its highest bit); the state as a sliding window over one sequence of words, whose word 1 is recovered from outputs 0, 1, 169 to 171 and 396 to 398; conversion to double by the lemmas of Proofs/Float. Result: The engine is modelled after the C++ standard (std::mt19937), the conversion to double after generate_canonical of the standard with the guard of libstdc++ against 1; these are library code, not in the repository. Different words are proved, not different doubles: each double drops up to eleven bits of its two words.
  Theorems: `C130_seeds`, `C130_events`, `C130_constructor`, `C130_range`, `C130_near`, `C130_zero`, `C130_guard_needed`, `C130_calls`, `C130_draws`.
* **C131 Rounding never makes an emitted particle's energy negative** (proved). Proofs/FloatDecay: exactness of the first bin (a tie is impossible because the half bin is an odd multiple of 2^-57), differences of numbers within a factor of two are exact, monotonicity of rounding for the first bin, error bounds for the others; induction over the emissions for the balance. Result: Double arithmetic as in C123. Separation energies between -64 and 64 MeV; the exact first bin for energies from 0.2 MeV on. A channel of energy zero is closed by the first line of omCalc (omcalc.cpp:45), here the hypothesis that the tested energy is positive.
  Theorems: `C131_mesh`, `C131_top`, `C131_neutron`, `C131_neutron_next`, `C131_level`, `C131_photon`, `C131_photon_level`, `C131_floor`, `C131_velocity`, `C131_balance`.
* **C132 Calls of cgm and of fission events in one process do not disturb each other** (partial). Props/Mixed: induction over the calls with the shared flag as invariant; the discrete cascade without a window ends at level zero by induction over its passes; two evaluated processes as refutation. Result: The window of every call of every sequence is determined exactly; the claim is refuted with a nucleus that has an isomer, and proved for sequences whose calls are all entitled to the same window. Fission events and yields are parameters here.
  Theorems: `C132_exact`, `C132_partial`, `C132_cgm_first`, `C132_event_first`, `C132_ground`, `C132_refuted`, `C132_refuted_event`.
* **C133 Every photon of an event has an energy and a direction, in double arithmetic** (proved). Props/FloatPhoton: errors of velocity, root, divisor and quotient one after the other; the exact shift lies between 0.57 and 1.74 below half the speed of light; one component of a vector along a drawn direction is at least a sixteenth of its length, so C123 applies. Result: Double arithmetic as in C123; sin, cos and acos of the library are parameters assumed to be accurate to 2^-50 (cosine of the arc cosine, Pythagorean identities, cosine at most one), which the exact functions satisfy. The formula itself uses the angle to a fixed axis, not to the fragment (see C41).
  Theorems: `C133_doppler`, `C133_positive`, `C133_vector`, `C133_recorded`, `C133_photon`.
* **C134 The summary table shows the averages its rows and columns name** (proved). Props/Summary: every cell is the text of a mean of a list written down from the events in Spec/Summary; the rounding of the text from Proofs/Text; sum rules by linear arithmetic on the rounding errors. Result: Means are exact (rational numbers), formats round to nearest, ties to even, as Python does for the exact value; the rounding of numpy's mean is not modelled. The labels are without the markup of the notebook.
  Theorems: `C134_table`, `C134_sums`.
* **C135 An energy threshold means the same in all methods of the toolkit** (partial). Props/Summary: counts above and at the threshold split entry by entry; sums over fragments by induction. Result: Exact difference between the two conventions for every history and threshold; the agreement is refuted for every photon energy in the file taken as threshold.
  Theorems: `C135_threshold_partial`, `C135_refuted`, `C135_counts`.
* **C136 From the seeds of a parallel run to the numbers in the notebook** (proved). Props/EndToEnd: the files of the ranks joined are the file of the serial run (C08), which is read back fragment by fragment within the printed decimals (C12), loads if C64 allows, and gives means within the entrywise error (induction over the events); the table from C134. Result: Composition of C08, C12, C14, C64, C119 and C134. The random engine and the generation of one event are parameters (an arbitrary function of reaction, window and engine state); the getters are assumed to show the content of the event (C03, C04). Rational numbers; the files are not cut and not mixed up. Files that cannot be loaded are excluded by hypothesis (C64).
  Theorems: `C136_table`.
* **C137 The summary on the screen and the table in the notebook agree** (proved). Props/Screen: each number on the screen is the mean that C10 gives, each cell of the table is near the same mean by C136; the two roundings and the decimals of the file add up. Result: Composition of C10 and C136; parameters and hypotheses as there. The getters of the driver are those of the printed events (entry or -1 outside, C03). The words of the summary are not modelled.
  Theorems: `C137_agree`.
* **C138 The counters of a run do not overflow** (partial). Props/Overflow: since all terms are non-negative, partial sums are below the totals, so the 32-bit additions are defined exactly if the totals fit; induction over events and ranks. Result: False for long runs. A sum of MPI_Reduce outside the range counts as undefined like a signed overflow in C++; the order of its additions is that of the ranks.
  Theorems: `C138_iff`, `C138_events_partial`, `C138_refuted`, `C138_summary`, `C138_seeds`.
* **C139 Numbers on the command line are read as written** (partial). Props/CNumber: atoi and atof as in the C standard; a text that Python reads as a number as a whole is read as the same number, by cases on sign, fraction and exponent; composed with C98. Result: Numbers are read exactly; that other words are refused is false. atof gives the exact rational, not the nearest double; hexadecimal numbers, inf, nan and whole numbers outside the range of int are not modelled.
  Theorems: `C139_atoi`, `C139_atof`, `C139_options`, `C139_refuted`.
* **C140 The C interface gives every number of the event, and all of its functions exist** (partial). Props/CApi: for each quantity the accessor of its name is found in the table and shows the array that the constructor filled (C04); histories of calls by induction; the names without a definition by comparing both tables. Result: The accessors are right; seven declared functions do not exist. The generation of the event is a parameter (any content); int and float results are shown as exact numbers. Deleting events is in C59.
  Theorems: `C140_partial`, `C140_null`, `C140_refuted`, `C140_unresolved`.
* **C141 Tables printed in columns are read digit for digit** (proved). Props/Columns: a number with blanks around it is converted to its value whatever follows that cannot belong to it (C139); the columns of a line are cut out by their widths; composed with C94, C106 and C107. Result: C94, C106 and C107 with the conversions of C139 in place of parameters. Values are exact rationals, not the nearest doubles; spins are halves of whole numbers; whole numbers are in the range of int. The tables read with operator>> (temperatures, level densities) stay with the conversion as parameter (C94).
  Theorems: `C141_masses`, `C141_deformations`, `C141_levels`, `C141_parameters`, `C141_ratio`, `C141_printed_int`, `C141_printed_fixed`.
* **C142 Kinetic energies drawn are numbers near the average, in double arithmetic** (proved). Props/FloatGauss: a coordinate 2r-1 that is not zero is at least 2^-53, so the sum of squares is zero or at least 2^-106 and its logarithm at most 73.5; the square of the coordinate is below the sum, so the product with the root is at most sqrt(147); relative errors add up along the five operations; induction over rejected pairs. Result: C99 in double arithmetic. The library's logarithm is a parameter with a relative error of at most 2^-20 below 1; each operation is rounded on its own; overflow is not described (all numbers here are below 2^128). The average and the width are taken as numbers of type double up to 512 and 32 MeV.
  Theorems: `C142_gaussian`, `C142_value`, `C142_stops`, `C142_tke`, `C142_positive`.
* **C143 cgm refuses nuclei and energies out of its range, and does not give energy away** (partial). Props/CgmRange: the constructor, the chain, the meshes and the cascade are put together; no bin of the mesh lies above the energy, so the first set-up exits; with an energy of zero or below the nearest level is the ground state, the cascade starts one level higher (C34) and one photon falls into exactly one bin (C102). Result: Energies above the mesh and nuclei without mass are refused; energies of zero or below are not. Unknown spins of levels are taken as drawn; the initial population is a parameter (any); whether level density parameters exist is a parameter that stops the process.
  Theorems: `C143_high`, `C143_missing`, `C143_refuted`.
* **C144 The rank files of an interrupted parallel run give the events that were completed** (partial). Props/CutRanks: the rest of a rank file is a list of fragments; the reader takes any list of fragments in turn as light and heavy (induction over the fragments), so the pairing depends on the parity of the number of fragments before; composed with C119. Result: Cuts between events and between the two fragments of an event, for all ranks; a cut inside a line, which joins it to the first line of the next file, is only covered for the last rank (C119). C144_fragments, C144_odd and C144_refuted are for events without pre-fission neutrons.
  Theorems: `C144_between`, `C144_silent`, `C144_fragments`, `C144_odd`, `C144_refuted`.
* **C145 Neutrons of an event have their kinetic energy and momentum is balanced, in double arithmetic** (proved). Float lemmas; the vector lemma of C133 with any accurate sine; bounds by monotonicity of rounding at powers of two; induction over the list of calls with a bound on the momentum that grows by the momentum of one neutron Result: C35 to C37 in double arithmetic. The masses are parameters with bounds that nuclei of fission meet (neutron at most 960 MeV, fissioning nucleus between 2^17 and 2^18 MeV, emitting fragment at least 2^16 MeV, that is 71 mass units); sine and cosine of the library are at most 1 and satisfy the Pythagorean identity within 2^-50; each operation is rounded on its own; overflow is not described. Up to 7 neutrons before fission and 25 from each fragment (the code has room for fewer). Energies below 2^-300 MeV are left out of the relative error. Directions from a table: C124.
  Theorems: `C145_neutron`, `C145_fragment`, `C145_divide`, `C145_direction`, `C145_fission`.
* **C146 Numbers between blanks are read digit for digit** (proved). Model/Stream collects characters as num_get does; induction over digits, then fraction and exponent, shows that a number followed by white space is collected whole; the readers of C94 are repeated with this extraction Result: Extraction of int and double from a stream character by character (ISO C++ num_get with the classic locale, decimal numbers; the nearest double is left out). C146_word shows that for such numbers the extraction by words used in C94, C97, C104, C111 is the same. The first row of level densities is lost (C94_refuted).
  Theorems: `C146_number`, `C146_word`, `C146_temperatures`, `C146_levels`, `C146_point`.
* **C147 Energy of a fission is shared without loss, and the sharing ends, in double arithmetic** (proved). numbers that agree up to k roundings form an algebra (products, quotients, sums); the share changes by at most a quarter of the relative change of each parameter, so a pass contracts the step; for rising tables a step that turns back is shorter than the rounding Result: C42, C43 and C53 in double arithmetic. Mass excesses, separation energy and ratio of temperatures are parameters with bounds; each operation is rounded on its own. The tolerance is any double (0.01 in the code is one above 1/128). Termination needs tables without jumps: C43_not_terminating is a table for which the loop never ends. 30 MeV and 1/16 are sufficient for the rows of data/ldp.dat as shipped; for more energy C147_steady gives the condition.
  Theorems: `C147_available`, `C147_share`, `C147_balance`, `C147_kinetic`, `C147_ends`, `C147_steady`, `C147_table`, `C147_tables_end`, `C147_tables_steady`.
* **C148 The averages of a run survive rounding, whatever the number of ranks** (proved). numbers equal up to k roundings are closed under sums and quotients; induction over events and particles for a rank, induction over the tree of additions for the reduction Result: C10 and C11 in double arithmetic. Whole numbers are exact (C138). MPI_Reduce and numpy are any order and grouping of roundings to nearest; a library that adds in a wider format is not covered. The rounding of printf is not in it (C137).
  Theorems: `C148_summary`, `C148_split`, `C148_mean`.
* **C149 Masses, charges, spins and neutron numbers are drawn with the probabilities of their tables, in double arithmetic** (proved). count the outputs of the engine between two reals, the computed index and decision lie between two intervals; product of counts for two draws; induction over the turns and the geometric series for the loop Result: C50 and C54 with the discrete random numbers of C130 and in double arithmetic. The outputs of the engine for different turns are taken as independent and uniform (the engine itself is C130); the exponential of the spin weights is a parameter (any weights that are not negative, one of them at least 2^-400). Windows for which C125_overshoot shows an index past the end are left out.
  Theorems: `C149_index`, `C149_accept`, `C149_attempt`, `C149_law`, `C149_from_zero`, `C149_charge`, `C149_mass`, `C149_spin`.
* **C150 Directions are isotropic and parities even, over all random bits** (proved). the computed cosine and azimuth lie between two intervals; count of outputs and product as in C149 Result: C100 and the parities of C54 with the discrete random numbers of C130 and in double arithmetic. The outputs of the engine for the two numbers are taken as independent and uniform. The sine and cosine of the library are not in it (C124).
  Theorems: `C150_cosine`, `C150_azimuth`, `C150_direction`, `C150_parity`.
* **C151 A level emits its photons in the ratio of the intensities in the file, over all random bits** (proved). the sum of the intensities and its reciprocal up to roundings, so the normalised shares and their sum; the choice by running sums of C126 and the acceptance of C149; product of counts Result: C28, C86 and C126 from the level file to the photon, with the discrete random numbers of C130 and in double arithmetic. The outputs of the engine for the two random numbers are taken as independent and uniform. Intensities and conversion coefficients are those read from the file (C106).
  Theorems: `C151_photon`, `C151_equal`, `C151_left`.
* **C152 Photons are late according to the half-lives, over all random bits** (proved). the constant for log 2 against the series of the logarithm; the computed delay agrees with the exact one up to roundings; an exponential changes by at most twice the relative change of its exponent; count of outputs as in C149 Result: C86_halflife with the discrete random numbers of C130 and in double arithmetic. The logarithm of the library is a parameter with a relative error eta of at most 2^-10 (for C152_rises: not positive below one); the random number zero gives an infinite time, as in the code. C152_window is for the first level of a cascade.
  Theorems: `C152_time`, `C152_window`, `C152_rises`.
* **C153 Every path of photons has its probability, over all random bits** (proved). C151 for one pass; induction over the path, a pass without choice adds its small chance; errors of products add up Result: C86 with the discrete random numbers of C130 and in double arithmetic, from the intensities in the level file. Each pass of the loop has its own independent uniform outputs of the engine; times and the coincidence window are left out (C152).
  Theorems: `C153_path`.
* **C154 Forced transitions reach each allowed level equally often, over all random bits** (proved). the largest number wins (pick_run of C110); exchanging two numbers leaves the count of outputs unchanged, so all have the same chance to be larger than all others; two numbers are equal for at most 3/2^53 of the outputs, by counting along one of them Result: C110_forced with the discrete random numbers of C130, where two of the numbers can be equal. The outputs of the engine for the numbers are taken as independent and uniform. Spins are halves of whole numbers and their differences exact.
  Theorems: `C154_forced`, `C154_bypass`.
* **C155 States reached in the continuum are uniform in their bins, over all random bits** (proved). a rounded product with a number below one is below, by the spacing of the format; so the rounded part of the width is a number of the format below the rounded width and cannot exceed the exact one; absolute errors for the law, count of outputs as in C149 Result: The bins of C131 with the discrete random numbers of C130. All bins have the width ENERGY_BIN (no private energy grid). The widths of the bins are those in double arithmetic.
  Theorems: `C155_ends`, `C155_inside`, `C155_uniform`.
* **C156 A pass of the decay in the continuum follows the populations, over all random bits** (proved). the first random number decides the state (C126), the second the energy (C155), the others the forced transition (C154); product of counts, errors of products add up Result: C110 with the discrete random numbers of C130 and in double arithmetic, for given populations (any numbers; that they follow the transmissions is C87). Each outcome is counted over the random numbers it uses. The outputs of the engine are taken as independent and uniform.
  Theorems: `C156_level`, `C156_photon`, `C156_neutron`, `C156_cut`, `C156_none`.
* **C157 Neutrons and photons compete by their total populations, and spectra add up, over all random bits** (proved). both ends of the interval of a state carry the same accumulated error, so its width is off by one rounding; what is cut off above one telescopes; sum over the states with C155 for the energy Result: Strengthens C126 and C156: the error of one state does not grow with its place in the list. For given populations, as C156. States of the decaying nucleus below the cut are forced to levels and do not count in C157_spectrum (C156_cut). The outputs of the engine are taken as independent and uniform.
  Theorems: `C157_total`, `C157_competition`, `C157_spectrum`.
* **C158 Laboratory energies of neutrons are uniform between their limits, and fast fragments focus them forward** (proved). the laboratory energy is linear in the cosine of the direction to the motion of the fragment; a reflection takes this axis to z, and the cap has the share of its height (C100) Result: In exact arithmetic, with independent uniform random numbers (as C100). For neutrons of the statistical decay; those before equilibrium have angles from a table (C124_table).
  Theorems: `C158_limits`, `C158_energy`, `C158_forward`.
* **C159 Laboratory energies of photons follow the Doppler shift of an isotropic emission** (partial). both laws as shares of caps of the sphere; compare the cosines by the product of the distances to the two Doppler limits Result: The code applies the formula of the other frame (C41_formula_refuted), so the law is another one for every speed: more than half of the photons are recorded with no more energy than they were emitted with, where it should be less than half (C159_refuted). The part that holds: within the limits the probability of at most E is the intended one or more by at most the speed b (C159_close_partial). Missing: equality of the laws, which is false. Exact arithmetic, uniform random numbers.
  Theorems: `C159_close_partial`, `C159_refuted`.
* **C160 Recoils of a chain of neutrons cancel on average** (proved). momenta and velocities are linear in the directions of all neutrons so far (induction over the chain); directions have mean zero and are uncorrelated by independence of the random numbers Result: In exact arithmetic, with independent uniform random numbers. For given energies of the neutrons (their laws: C87, C110, C157); neutrons of the statistical decay.
  Theorems: `C160_momentum`, `C160_square`, `C160_velocity`, `C160_energy`.
* **C161 Photons gain energy on average by the motion of the fragment** (partial). integrate the recorded energy over the cosine (a logarithm); t < sinh t for the refutation, first term of the series for the bound Result: Same cause as C159: for every speed of the fragment photons lose energy on average in the code, while the Doppler shift over isotropic directions gives more (C161_refuted, both averages computed). The part that holds: the average is at least e sqrt(1-b^2) (C161_partial). Missing: the average itself, which is another one. Exact arithmetic, uniform random numbers.
  Theorems: `C161_partial`, `C161_refuted`.
