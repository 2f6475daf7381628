{
 "claims": [
  {
   "property": "C01",
   "status": "proved",
   "theorems": [
    "CGMF.Props.C01_gate_exact",
    "CGMF.Props.C01_gate_refuses"
   ],
   "note": "iff over all Int ids and all energies of an ordered field"
  },
  {
   "property": "C02",
   "status": "partial",
   "theorems": [
    "CGMF.Props.C02_compound_partial",
    "CGMF.Props.C02_negative_id_undefined"
   ],
   "note": "Holds for positive ids; negative ids accepted by the first gate reach an out-of-bounds table access (proved)."
  },
  {
   "property": "C03",
   "status": "proved",
   "theorems": [
    "CGMF.Props.C04_event_lists",
    "CGMF.Props.C03_prefission_getters"
   ],
   "note": "all getters, all Int indices"
  },
  {
   "property": "C04",
   "status": "proved",
   "theorems": [
    "CGMF.Props.C04_event_lists",
    "CGMF.Props.C04_decay"
   ],
   "note": ""
  },
  {
   "property": "C05",
   "status": "proved",
   "theorems": [
    "CGMF.Props.C05_datapath",
    "CGMF.Props.C05_datapath_exit_iff"
   ],
   "note": ""
  },
  {
   "property": "C06",
   "status": "proved",
   "theorems": [
    "CGMF.Props.C06_conservation"
   ],
   "note": "Option Systematics. The number of pre-fission neutrons is drawn once per FissionFragments object and shared by its events, as in the code; the routines that draw it and that build the yield tables are arbitrary in the theorem."
  },
  {
   "property": "C07",
   "status": "proved",
   "theorems": [
    "CGMF.Props.C07_seeds_tile",
    "CGMF.Props.C07_seeds_injective"
   ],
   "note": ""
  },
  {
   "property": "C08",
   "status": "proved",
   "theorems": [
    "CGMF.Props.C08_event_from_seed",
    "CGMF.Props.C08_split",
    "CGMF.Props.C08_parallel_equals_serial",
    "CGMF.Props.C08_progress_safe"
   ],
   "note": "per-event code is a parameter that reads only reaction, window and generator state"
  },
  {
   "property": "C09",
   "status": "partial",
   "theorems": [
    "CGMF.Props.C09_window_exact",
    "CGMF.Props.C09_window_refuted",
    "CGMF.Props.C09_window_partial",
    "CGMF.Props.C09_zero_window_is_infinite"
   ],
   "note": "The claim is false of the code (window is sticky): exact behaviour characterised, negation proved, and the claim proved for the first event."
  },
  {
   "property": "C10",
   "status": "proved",
   "theorems": [
    "CGMF.Props.C10_summary",
    "CGMF.Props.C10_zero_events_undefined"
   ],
   "note": ""
  },
  {
   "property": "C11",
   "status": "proved",
   "theorems": [
    "CGMF.Props.C11_totals_consistent"
   ],
   "note": ""
  },
  {
   "property": "C12",
   "status": "proved",
   "theorems": [
    "CGMF.Props.C12_history_roundtrip",
    "CGMF.Props.C12_exact_on_grid"
   ],
   "note": "printing and parsing on characters, rounding of %f and %g modelled exactly on rationals"
  },
  {
   "property": "C13",
   "status": "proved",
   "theorems": [
    "CGMF.Props.C13_yields_roundtrip"
   ],
   "note": ""
  },
  {
   "property": "C14",
   "status": "proved",
   "theorems": [
    "CGMF.Props.C14_concatenation",
    "CGMF.Props.C14_headerless_refused"
   ],
   "note": ""
  },
  {
   "property": "C15",
   "status": "proved",
   "theorems": [
    "CGMF.Props.C15_partition"
   ],
   "note": "Every completed decay of one fragment yields a record whose neutrons and photons partition the emission history."
  },
  {
   "property": "C16",
   "status": "partial",
   "theorems": [
    "CGMF.Props.C16_energy_balance_partial",
    "CGMF.Props.C16_discrete_start",
    "CGMF.Props.C16_refuted"
   ],
   "note": "Energy balance proved when the fragment starts in the continuum. A fragment that starts on a discrete level balances against the level energy, not the requested excitation energy; C16_refuted shows the natural statement is false there."
  },
  {
   "property": "C17",
   "status": "proved",
   "theorems": [
    "CGMF.Props.C17_nonnegative"
   ],
   "note": ""
  },
  {
   "property": "C18",
   "status": "proved",
   "theorems": [
    "CGMF.Props.C18_capacity",
    "CGMF.Props.C18_terminates",
    "CGMF.Props.C18_memory_safe",
    "CGMF.Props.C18_short_array",
    "CGMF.Props.C18_dead_end",
    "CGMF.Props.C18_fuel"
   ],
   "note": "Termination and absence of undefined behaviour on usable level schemes. C18_dead_end exhibits a level scheme (a level without branches) on which the loop never ends."
  },
  {
   "property": "C19",
   "status": "proved",
   "theorems": [
    "CGMF.Props.C19_ages",
    "CGMF.Props.C19_delay"
   ],
   "note": ""
  },
  {
   "property": "C20",
   "status": "partial",
   "theorems": [
    "CGMF.Props.C20_inverse_cdf",
    "CGMF.Props.C20_states_once",
    "CGMF.Props.C20_no_fallback",
    "CGMF.Props.C20_fallback",
    "CGMF.Props.C20_zero_draw"
   ],
   "note": "Exact inverse-CDF selection for r > 0. For r = 0 the first listed state is chosen even with zero population (C20_zero_draw)."
  },
  {
   "property": "C21",
   "status": "partial",
   "theorems": [
    "CGMF.Props.C21_forced_partial",
    "CGMF.Props.C21_when_forced",
    "CGMF.Props.C21_defined",
    "CGMF.Props.C21_no_levels",
    "CGMF.Props.C21_odd_refuted"
   ],
   "note": "Proved for nuclei with integral spins; for half-integral spins the code uses the spin index instead of the spin and C21_odd_refuted gives a counterexample."
  },
  {
   "property": "C22",
   "status": "proved",
   "theorems": [
    "CGMF.Props.C22_cascade_walk"
   ],
   "note": ""
  },
  {
   "property": "C23",
   "status": "proved",
   "theorems": [
    "CGMF.Props.C23_residual"
   ],
   "note": ""
  },
  {
   "property": "C24",
   "status": "partial",
   "theorems": [
    "CGMF.Props.C24_neutrons_fit",
    "CGMF.Props.C24_storage_iff",
    "CGMF.Props.C24_time_stamps_overrun"
   ],
   "note": "Neutron storage fits. Photon time stamps overrun their 50 entries for cascades the model can reach (C24_time_stamps_overrun)."
  },
  {
   "property": "C25",
   "status": "proved",
   "theorems": [
    "CGMF.Props.C25_grid",
    "CGMF.Props.C25_low_energy"
   ],
   "note": "Energies of at least half a bin; below that the grid collapses to a zero entry (C25_low_energy)."
  },
  {
   "property": "C26",
   "status": "proved",
   "theorems": [
    "CGMF.Props.C26_open_neutrons",
    "CGMF.Props.C26_largest"
   ],
   "note": ""
  },
  {
   "property": "C27",
   "status": "proved",
   "theorems": [
    "CGMF.Props.C27_chain",
    "CGMF.Props.C27_channels"
   ],
   "note": ""
  },
  {
   "property": "C28",
   "status": "proved",
   "theorems": [
    "CGMF.Props.C28_read",
    "CGMF.Props.C28_normalised",
    "CGMF.Props.C28_limits"
   ],
   "note": "The text of the file is in C106 and C141."
  },
  {
   "property": "C29",
   "status": "proved",
   "theorems": [
    "CGMF.Props.C29_way_down",
    "CGMF.Props.C29_fill",
    "CGMF.Props.C29_all_known",
    "CGMF.Props.C29_fill_total"
   ],
   "note": "C29_way_down assumes the transitions listed in the file go down. The fission path of the code (specMCMainFission) does not call the fill-in routine."
  },
  {
   "property": "C30",
   "status": "proved",
   "theorems": [
    "CGMF.Props.C30_flux",
    "CGMF.Props.C30_defined"
   ],
   "note": ""
  },
  {
   "property": "C31",
   "status": "proved",
   "theorems": [
    "CGMF.Props.C31_selection"
   ],
   "note": "Exact populations for all photon and neutron transitions, except in the bypass branch where nothing couples."
  },
  {
   "property": "C32",
   "status": "proved",
   "theorems": [
    "CGMF.Props.C32_feeding",
    "CGMF.Props.C32_conserved",
    "CGMF.Props.C32_spectrum",
    "CGMF.Props.C32_discrete",
    "CGMF.Props.C32_bin",
    "CGMF.Props.C32_bin_inside",
    "CGMF.Props.C32_bin_overrun",
    "CGMF.Props.C32_cascade_overrun"
   ],
   "note": "Assumes transition energies below the last half bin; at the accepted upper limit the spectrum array is overrun (C32_bin_overrun)."
  },
  {
   "property": "C33",
   "status": "partial",
   "theorems": [
    "CGMF.Props.C33_single",
    "CGMF.Props.C33_levden_partial",
    "CGMF.Props.C33_levden_unnormalised",
    "CGMF.Props.C33_transmission",
    "CGMF.Props.C33_beta"
   ],
   "note": "Proved for the single-state, entrance-channel and beta populations; the level-density population is normalised only when the spin cut-off is met below MAX_J (C33_levden_unnormalised)."
  },
  {
   "property": "C34",
   "status": "partial",
   "theorems": [
    "CGMF.Props.C34_start_partial",
    "CGMF.Props.C34_refuted"
   ],
   "note": "The code starts one level above the nearest level; C34_refuted shows it may start above the excitation energy."
  },
  {
   "property": "C35",
   "status": "proved",
   "theorems": [
    "CGMF.Props.C35_momentum",
    "CGMF.Props.C35_defined"
   ],
   "note": "Over the reals; sin, cos, sqrt are the Mathlib functions."
  },
  {
   "property": "C36",
   "status": "proved",
   "theorems": [
    "CGMF.Props.C36_chain",
    "CGMF.Props.C36_record"
   ],
   "note": ""
  },
  {
   "property": "C37",
   "status": "proved",
   "theorems": [
    "CGMF.Props.C37_momentum",
    "CGMF.Props.C37_sequence"
   ],
   "note": "The mass sequence is proved without a pre-equilibrium neutron; with one, see C66."
  },
  {
   "property": "C38",
   "status": "proved",
   "theorems": [
    "CGMF.Props.C38_event"
   ],
   "note": "Photon momenta are not part of the balance in the code (no recoil)."
  },
  {
   "property": "C39",
   "status": "proved",
   "theorems": [
    "CGMF.Props.C39_unit",
    "CGMF.Props.C03_prefission_getters"
   ],
   "note": "A particle with zero velocity gives not-a-number, a separate outcome of the model."
  },
  {
   "property": "C40",
   "status": "proved",
   "theorems": [
    "CGMF.Props.C40_split"
   ],
   "note": ""
  },
  {
   "property": "C41",
   "status": "partial",
   "theorems": [
    "CGMF.Props.C41_limits_partial",
    "CGMF.Props.C41_axis_partial",
    "CGMF.Props.C41_angle_refuted",
    "CGMF.Props.C41_formula_refuted"
   ],
   "note": "Positivity, Doppler limits and the axis case are proved; the code uses the angle to the x axis and the formula for the laboratory angle, so the full statement is refuted."
  },
  {
   "property": "C42",
   "status": "partial",
   "theorems": [
    "CGMF.Props.C42_balance_partial",
    "CGMF.Props.C42_entropy",
    "CGMF.Props.C42_entropy_refuted",
    "CGMF.Props.C42_unknown_option"
   ],
   "note": "Exact balance in every event for the temperature-ratio rules (fixedRT, Pfactors, RTA). For maxEntropy the claim is false of the code: the collective energy is given to neither fragment (deficit characterised, witness)."
  },
  {
   "property": "C43",
   "status": "partial",
   "theorems": [
    "CGMF.Props.C43_result",
    "CGMF.Props.C43_terminates_partial",
    "CGMF.Props.C43_slopes_partial",
    "CGMF.Props.C43_slopes_end_partial",
    "CGMF.Props.C43_not_terminating"
   ],
   "note": "Sum rule and consistency on termination; termination with an explicit bound on the passes when neither parameter falls with energy, or when both change slowly, rising or falling (by at most kappa times their least value per MeV, kappa txe < 2; every row of data/ldp.dat as shipped has kappa < 1/16 by a separate count that is not part of the proof); termination in general is refuted by a table for which the loop is unfinished after any number of passes."
  },
  {
   "property": "C44",
   "status": "proved",
   "theorems": [
    "CGMF.Props.C44_symmetric",
    "CGMF.Props.C44_normalised",
    "CGMF.Props.C44_range",
    "CGMF.Props.C44_slope_ignored",
    "CGMF.Props.C44_row_overrun"
   ],
   "note": "exp is a parameter; symmetry needs nothing about it. Findings: the slope of the symmetric width is never used, and four pre-fission neutrons read outside the four-entry table."
  },
  {
   "property": "C45",
   "status": "proved",
   "theorems": [
    "CGMF.Props.C45_column",
    "CGMF.Props.C45_no_width",
    "CGMF.Props.C45_table",
    "CGMF.Props.C45_moved_window"
   ],
   "note": "erf is a parameter assumed monotone. The window of charges must not move between calls (true of the default method)."
  },
  {
   "property": "C46",
   "status": "partial",
   "theorems": [
    "CGMF.Props.C46_charge_partial",
    "CGMF.Props.C46_total",
    "CGMF.Props.C46_charge_refuted"
   ],
   "note": "The code divides by the yield of the last charge only."
  },
  {
   "property": "C47",
   "status": "proved",
   "theorems": [
    "CGMF.Props.C47_complementary",
    "CGMF.Props.C47_formula",
    "CGMF.Props.C47_defined",
    "CGMF.Props.C47_energy",
    "CGMF.Props.C47_limits"
   ],
   "note": "For the mass bounds in the order the code tests (it only warns otherwise). The width is excepted at a mass exactly equal to the real boundary Bb, where the code takes the neighbouring region. exp and the coefficient vectors are parameters."
  },
  {
   "property": "C48",
   "status": "proved",
   "theorems": [
    "CGMF.Props.C48_heights",
    "CGMF.Props.C48_range",
    "CGMF.Props.C48_no_zero",
    "CGMF.Props.C48_probability"
   ],
   "note": "Also the exact probability that the first attempts return a given mass and charge, on Lebesgue measure."
  },
  {
   "property": "C49",
   "status": "proved",
   "theorems": [
    "CGMF.Props.C49_average",
    "CGMF.Props.C49_symmetric",
    "CGMF.Props.C49_table_overrun"
   ],
   "note": ""
  },
  {
   "property": "C50",
   "status": "partial",
   "theorems": [
    "CGMF.Props.C50_interpolated_partial",
    "CGMF.Props.C50_distribution_partial",
    "CGMF.Props.C50_number",
    "CGMF.Props.C50_probability",
    "CGMF.Props.C50_lowest_energy_undefined",
    "CGMF.Props.C50_limit_raised"
   ],
   "note": "The distribution and sampling are proved for every energy strictly above the lowest tabulated one; at the lowest energy itself the interpolation reads before the table (C50_lowest_energy_undefined). The energetic limit on the number of neutrons is replaced by the size of the table when all probabilities up to it are positive (C50_limit_raised). The text of the file is in C111."
  },
  {
   "property": "C51",
   "status": "partial",
   "theorems": [
    "CGMF.Props.C51_energy_partial",
    "CGMF.Props.C51_nucleus",
    "CGMF.Props.C51_negative_energy",
    "CGMF.Props.C51_below_barrier"
   ],
   "note": "Balance proved for the excitation handed on; the smeared kinetic energy can be negative (C51_negative_energy) and below the barrier no energy is removed although the neutrons are counted (C51_below_barrier)."
  },
  {
   "property": "C52",
   "status": "proved",
   "theorems": [
    "CGMF.Props.C52_table",
    "CGMF.Props.C52_sampled",
    "CGMF.Props.C52_isotropic",
    "CGMF.Props.C52_asymmetric"
   ],
   "note": "Finding: the table is not forward-backward symmetric although the density is; the exact asymmetry is proved."
  },
  {
   "property": "C53",
   "status": "proved",
   "theorems": [
    "CGMF.Props.C53_inside",
    "CGMF.Props.C53_nodes",
    "CGMF.Props.C53_beyond"
   ],
   "note": "At or above the last grid point the read before the array is proved for every table."
  },
  {
   "property": "C54",
   "status": "proved",
   "theorems": [
    "CGMF.Props.C54_distribution",
    "CGMF.Props.C54_spin",
    "CGMF.Props.C54_parity",
    "CGMF.Props.C54_probability"
   ],
   "note": "A vanishing spin parameter (division by zero in the code) is a separate undefined outcome and excluded by hypothesis."
  },
  {
   "property": "C55",
   "status": "partial",
   "theorems": [
    "CGMF.Props.C55_neutrons",
    "CGMF.Props.C55_photons",
    "CGMF.Props.C55_photons_all",
    "CGMF.Props.C55_threshold_fails"
   ],
   "note": "Without a neutron threshold all is proved; with one Pnu raises for every history of two or more events (proved)."
  },
  {
   "property": "C56",
   "status": "partial",
   "theorems": [
    "CGMF.Props.C56_mass_partial",
    "CGMF.Props.C56_refuted",
    "CGMF.Props.C56_photons",
    "CGMF.Props.C56_tke_partial",
    "CGMF.Props.C56_columns_partial"
   ],
   "note": "nubarA, TKEA, UA and spinA leave out the largest mass: exact deficit proved and the claim refuted; nubargA is complete."
  },
  {
   "property": "C57",
   "status": "partial",
   "theorems": [
    "CGMF.Props.C57_pairs_partial",
    "CGMF.Props.C57_refuted",
    "CGMF.Props.C57_count"
   ],
   "note": "The lists contain each pair once and in addition every neutron with itself."
  },
  {
   "property": "C58",
   "status": "proved",
   "theorems": [
    "CGMF.Props.C58_time",
    "CGMF.Props.C58_monotone",
    "CGMF.Props.C58_per_fragment"
   ],
   "note": "With an age per photon. nubarg with a time window is normalised per event, not per fragment (proved)."
  },
  {
   "property": "C59",
   "status": "proved",
   "theorems": [
    "CGMF.Props.C59_safe_histories",
    "CGMF.Props.C59_after_clean_undefined",
    "CGMF.Props.C59_getter_first_undefined"
   ],
   "note": "Safe histories characterised; misuse proved to be undefined behaviour."
  },
  {
   "property": "C60",
   "status": "proved",
   "theorems": [
    "CGMF.Props.C60_safe_iff",
    "CGMF.Props.C60_after_cleanup_undefined",
    "CGMF.Props.C60_driver_no_leak",
    "CGMF.Props.C60_driver_no_events"
   ],
   "note": "Exact iff for all well-formed programs; driver leak-free for every event list."
  },
  {
   "property": "C61",
   "status": "proved",
   "theorems": [
    "CGMF.Props.C61_stream_from_seed",
    "CGMF.Props.C61_constructor_seed_ignored",
    "CGMF.Props.C61_install_copies",
    "CGMF.Props.C61_no_generator_fails"
   ],
   "note": "engine abstract"
  },
  {
   "property": "C62",
   "status": "partial",
   "theorems": [
    "CGMF.Props.C62_yields_mode_partial",
    "CGMF.Props.C62_yields_mode_ungated"
   ],
   "note": "False of the code: yields mode skips the gate; what is accepted is characterised."
  },
  {
   "property": "C63",
   "status": "partial",
   "theorems": [
    "CGMF.Props.C63_cgm_directions_indeterminate",
    "CGMF.Props.C63_cgm_event"
   ],
   "note": "False of the code (negation proved): directions and ages are never written for cgm events."
  },
  {
   "property": "C64",
   "status": "partial",
   "theorems": [
    "CGMF.Props.C64_loadable_iff",
    "CGMF.Props.C64_unloadable"
   ],
   "note": "False of the code: exact iff proved, refused files exhibited for every size."
  },
  {
   "property": "C65",
   "status": "partial",
   "theorems": [
    "CGMF.Props.C65_kepost_partial",
    "CGMF.Props.C65_kepost_refuted"
   ],
   "note": "The code divides by the mass before emission."
  },
  {
   "property": "C66",
   "status": "partial",
   "theorems": [
    "CGMF.Props.C66_tke",
    "CGMF.Props.C66_at_rest",
    "CGMF.Props.C66_additive_partial",
    "CGMF.Props.C66_momenta_partial",
    "CGMF.Props.C66_preeq_refuted",
    "CGMF.Props.C66_moving_refuted"
   ],
   "note": "Exact for a nucleus at rest; otherwise the exact deviation is proved."
  },
  {
   "property": "C67",
   "status": "partial",
   "theorems": [
    "CGMF.Props.C67_lookup_partial",
    "CGMF.Props.C67_absent_undefined"
   ],
   "note": "The fallback for absent nuclei is undefined behaviour for every file."
  },
  {
   "property": "C68",
   "status": "proved",
   "theorems": [
    "CGMF.Props.C68_counts",
    "CGMF.Props.C68_bins"
   ],
   "note": "Edges increasing, as numpy requires."
  },
  {
   "property": "C69",
   "status": "proved",
   "theorems": [
    "CGMF.Props.C69_normalised",
    "CGMF.Props.C69_neutrons",
    "CGMF.Props.C69_value"
   ],
   "note": "With no neutron on the grid the result is NaN, outside the statement."
  },
  {
   "property": "C70",
   "status": "proved",
   "theorems": [
    "CGMF.Props.C70_ratio",
    "CGMF.Props.C70_absent"
   ],
   "note": ""
  },
  {
   "property": "C71",
   "status": "proved",
   "theorems": [
    "CGMF.Props.C71_probability",
    "CGMF.Props.C71_value",
    "CGMF.Props.C71_matching",
    "CGMF.Props.C71_inward",
    "CGMF.Props.C71_start"
   ],
   "note": "Exact arithmetic; a coefficient whose computation divides by zero has the outcome ub."
  },
  {
   "property": "C72",
   "status": "proved",
   "theorems": [
    "CGMF.Props.C72_flux_balance",
    "CGMF.Props.C72_no_source",
    "CGMF.Props.C72_complete",
    "CGMF.Props.C72_real_potential"
   ],
   "note": ""
  },
  {
   "property": "C73",
   "status": "proved",
   "theorems": [
    "CGMF.Props.C73_wronskian",
    "CGMF.Props.C73_no_exit",
    "CGMF.Props.C73_returns",
    "CGMF.Props.C73_low_energy",
    "CGMF.Props.C73_order"
   ],
   "note": "Starting values come from cos and sin (neutrons) or from the Coulomb asymptotics, which are inputs."
  },
  {
   "property": "C74",
   "status": "partial",
   "theorems": [
    "CGMF.Props.C74_reaction_partial",
    "CGMF.Props.C74_not_cross_section"
   ],
   "note": "The factor pi/k^2 is commented out in the code; everything else is proved."
  },
  {
   "property": "C75",
   "status": "partial",
   "theorems": [
    "CGMF.Props.C75_mesh_partial",
    "CGMF.Props.C75_overrun",
    "CGMF.Props.C75_derivative"
   ],
   "note": "A mesh of exactly 300 steps overruns the arrays (proved)."
  },
  {
   "property": "C76",
   "status": "partial",
   "theorems": [
    "CGMF.Props.C76_absorptive",
    "CGMF.Props.C76_forms_partial",
    "CGMF.Props.C76_surface_dropped"
   ],
   "note": "The real surface term is lost when the real volume depth is not positive (proved); the imaginary part is complete."
  },
  {
   "property": "C77",
   "status": "proved",
   "theorems": [
    "CGMF.Props.C77_converges",
    "CGMF.Props.C77_unique",
    "CGMF.Props.C77_solution",
    "CGMF.Props.C77_nonneg"
   ],
   "note": "Exact arithmetic."
  },
  {
   "property": "C78",
   "status": "partial",
   "theorems": [
    "CGMF.Props.C78_in_table",
    "CGMF.Props.C78_table_end",
    "CGMF.Props.C78_pairing",
    "CGMF.Props.C78_pauli",
    "CGMF.Props.C78_density",
    "CGMF.Props.C78_matrix",
    "CGMF.Props.C78_rates",
    "CGMF.Props.C78_single",
    "CGMF.Props.C78_endpoints"
   ],
   "note": "Signs, ranges and table bounds are proved; the weights of the Simpson sum are refuted (C78_endpoints)."
  },
  {
   "property": "C79",
   "status": "partial",
   "theorems": [
    "CGMF.Props.C79_exciton",
    "CGMF.Props.C79_emission",
    "CGMF.Props.C79_evaporation",
    "CGMF.Props.C79_closed"
   ],
   "note": "A closed evaporation channel divides zero by zero (C79_closed)."
  },
  {
   "property": "C80",
   "status": "partial",
   "theorems": [
    "CGMF.Props.C80_connect",
    "CGMF.Props.C80_continuous_partial",
    "CGMF.Props.C80_joined_partial",
    "CGMF.Props.C80_jump",
    "CGMF.Props.C80_extrapolate",
    "CGMF.Props.C80_joined_extrapolate",
    "CGMF.Props.C80_below",
    "CGMF.Props.C80_parameter",
    "CGMF.Props.C80_shell",
    "CGMF.Props.C80_shell_jump"
   ],
   "note": "Exact real arithmetic. Continuity is false when the matching energy is below the highest discrete level (C80_jump) and proved otherwise. The logarithmic slope is stated where the spin cut-off is above its floors."
  },
  {
   "property": "C81",
   "status": "partial",
   "theorems": [
    "CGMF.Props.C81_densities",
    "CGMF.Props.C81_positive",
    "CGMF.Props.C81_history_partial",
    "CGMF.Props.C81_stale",
    "CGMF.Props.C81_scale",
    "CGMF.Props.C81_spin_cut"
   ],
   "note": "History independence is proved with a matching energy and refuted without one. The refutation starts from a structure with matching energy zero; that the shipped data lead to one is not shown (with the rows of data/kcksyst.dat and a nucleus without known excited levels they do not for A from 60 to 180, by a separate numerical count)."
  },
  {
   "property": "C82",
   "status": "proved",
   "theorems": [
    "CGMF.Props.C82_found",
    "CGMF.Props.C82_temperature"
   ],
   "note": "The temperature is positive for shell corrections below 10 MeV. A row whose shell correction is exactly zero is treated as absent."
  },
  {
   "property": "C83",
   "status": "proved",
   "theorems": [
    "CGMF.Props.C83_E1",
    "CGMF.Props.C83_M1_E2",
    "CGMF.Props.C83_nonneg",
    "CGMF.Props.C83_setup",
    "CGMF.Props.C83_temperature",
    "CGMF.Props.C83_zero_energy",
    "CGMF.Props.C83_even"
   ],
   "note": "Exact real arithmetic. Resonances are set up for the first nucleus only (specmc.cpp:143, 244) and used for its residuals."
  },
  {
   "property": "C84",
   "status": "proved",
   "theorems": [
    "CGMF.Props.C84_gamma",
    "CGMF.Props.C84_flux"
   ],
   "note": "Assumes a positive level density parameter, a positive temperature and a matching energy above the pairing energy (C80, C82 give them) and levels not above the last one."
  },
  {
   "property": "C85",
   "status": "proved",
   "theorems": [
    "CGMF.Props.C85_mass_charge",
    "CGMF.Props.C85_ends",
    "CGMF.Props.C85_pair",
    "CGMF.Props.C85_spin",
    "CGMF.Props.C85_number",
    "CGMF.Props.C85_bin"
   ],
   "note": "The generator is idealised as independent numbers uniform on [0,1); exact real arithmetic. C50_limit_raised states when the number of neutrons is not what the energy allows."
  },
  {
   "property": "C86",
   "status": "proved",
   "theorems": [
    "CGMF.Props.C86_path",
    "CGMF.Props.C86_halflife"
   ],
   "note": "Paths without a coincidence window or with levels of zero half-life; the idealised generator; branching ratios that add up to one (C28 states what the reader guarantees)."
  },
  {
   "property": "C87",
   "status": "proved",
   "theorems": [
    "CGMF.Props.C87_branching",
    "CGMF.Props.C87_competition"
   ],
   "note": "Idealised generator; transmission coefficients and level densities are non-negative parameters (C71, C81, C83 for the library's own). A step without any open transition goes through the bypass and is outside the statement."
  },
  {
   "property": "C88",
   "status": "proved",
   "theorems": [
    "CGMF.Props.C88_neutrons",
    "CGMF.Props.C88_photons",
    "CGMF.Props.C88_split",
    "CGMF.Props.C88_each",
    "CGMF.Props.C88_range"
   ],
   "note": "Histories whose recorded numbers are those of the listed particles (C13, C64 for files written by CGMF). Rational arithmetic."
  },
  {
   "property": "C89",
   "status": "partial",
   "theorems": [
    "CGMF.Props.C89_neutrons_partial",
    "CGMF.Props.C89_photons_partial",
    "CGMF.Props.C89_refuted",
    "CGMF.Props.C89_names"
   ],
   "note": "All rows but the last are proved; the last is always zero and the claim refuted; UTKE and spinTKE raise for every history."
  },
  {
   "property": "C90",
   "status": "partial",
   "theorems": [
    "CGMF.Props.C90_integral_partial",
    "CGMF.Props.C90_refuted"
   ],
   "note": "The integral is the multiplicity of all photons, whatever the threshold and the window; refuted for every history with a photon that is cut."
  },
  {
   "property": "C91",
   "status": "proved",
   "theorems": [
    "CGMF.Props.C91_neutrons",
    "CGMF.Props.C91_empty",
    "CGMF.Props.C91_fragments",
    "CGMF.Props.C91_between"
   ],
   "note": "Real square root; directions are as in the file, so their length is one only up to the digits printed."
  },
  {
   "property": "C92",
   "status": "proved",
   "theorems": [
    "CGMF.Props.C92_gates",
    "CGMF.Props.C92_refused",
    "CGMF.Props.C92_list"
   ],
   "note": "Arguments of one dimension or numbers."
  },
  {
   "property": "C93",
   "status": "partial",
   "theorems": [
    "CGMF.Props.C93_partial",
    "CGMF.Props.C93_refuted",
    "CGMF.Props.C93_ignored",
    "CGMF.Props.C93_default",
    "CGMF.Props.C93_steps"
   ],
   "note": "Proved for multiples of 0.5 MeV and below the grid; refuted for all other grid energies with IEEE single and double arithmetic (round to nearest even)."
  },
  {
   "property": "C94",
   "status": "partial",
   "theorems": [
    "CGMF.Props.C94_temperatures",
    "CGMF.Props.C94_partial",
    "CGMF.Props.C94_refuted",
    "CGMF.Props.C94_masses",
    "CGMF.Props.C94_masses_refuted",
    "CGMF.Props.C94_deformations"
   ],
   "note": "Temperatures, masses and deformations proved for all well-formed files; level densities without the first row, which is lost. Conversion of a word to a number is a parameter."
  },
  {
   "property": "C95",
   "status": "partial",
   "theorems": [
    "CGMF.Props.C95_partial",
    "CGMF.Props.C95_local",
    "CGMF.Props.C95_refuted",
    "CGMF.Props.C95_anisotropy",
    "CGMF.Props.C95_garbled",
    "CGMF.Props.C95_cut",
    "CGMF.Props.C95_value"
   ],
   "note": "Six readers stop; the reader of the angular parameters never returns, the anisotropy reader uses uninitialised variables, a level density file with something else in the place of a nucleus or of a value never returns, one cut inside its last row is accepted with zeros (C95_cut, C95_value: characters of the file, conversions of the C library)."
  },
  {
   "property": "C96",
   "status": "partial",
   "theorems": [
    "CGMF.Props.C96_partial",
    "CGMF.Props.C96_read",
    "CGMF.Props.C96_user",
    "CGMF.Props.C96_refuted"
   ],
   "note": "Files of at most 15 rows; longer ones overrun the table."
  },
  {
   "property": "C97",
   "status": "partial",
   "theorems": [
    "CGMF.Props.C97_partial",
    "CGMF.Props.C97_refuted",
    "CGMF.Props.C97_comments"
   ],
   "note": "Files whose count has one digit; with ten rows only the first is known. exp is a parameter; the cut at zero is in the caller (C50)."
  },
  {
   "property": "C98",
   "status": "partial",
   "theorems": [
    "CGMF.Props.C98_settings",
    "CGMF.Props.C98_order",
    "CGMF.Props.C98_partial",
    "CGMF.Props.C98_required",
    "CGMF.Props.C98_refuted"
   ],
   "note": "Scanning and settings proved for every command line; a run without -n (optional in the manual) is undefined behaviour on rank 0."
  },
  {
   "property": "C99",
   "status": "proved",
   "theorems": [
    "CGMF.Props.C99_gaussian",
    "CGMF.Props.C99_ends",
    "CGMF.Props.C99_tke",
    "CGMF.Props.C99_normaldist"
   ],
   "note": "Real log and square root; independent uniform numbers in place of the generator. The comment in Yields.cpp says mean 1; it is 0."
  },
  {
   "property": "C100",
   "status": "proved",
   "theorems": [
    "CGMF.Props.C100_particles",
    "CGMF.Props.C100_neutron",
    "CGMF.Props.C100_fragments",
    "CGMF.Props.C100_rotation",
    "CGMF.Props.C100_cosine"
   ],
   "note": "Reals; twopi is the exact circle; independent uniform numbers in place of the generator; energies positive."
  },
  {
   "property": "C101",
   "status": "proved",
   "theorems": [
    "CGMF.Props.C101_depths",
    "CGMF.Props.C101_mesh",
    "CGMF.Props.C101_tiny",
    "CGMF.Props.C101_outside",
    "CGMF.Props.C101_absorbs",
    "CGMF.Props.C101_no_source"
   ],
   "note": "Reals with real exp, log and pow; neutrons only (no Coulomb field)."
  },
  {
   "property": "C102",
   "status": "partial",
   "theorems": [
    "CGMF.Props.C102_lines",
    "CGMF.Props.C102_sound",
    "CGMF.Props.C102_partial",
    "CGMF.Props.C102_merged",
    "CGMF.Props.C102_soft",
    "CGMF.Props.C102_electron",
    "CGMF.Props.C102_overrun",
    "CGMF.Props.C102_record",
    "CGMF.Props.C102_record_overrun"
   ],
   "note": "Exact content of the returned lists proved for all decays; the correspondence with the emitted particles holds when all energies of a kind lie in different bins, none below half a bin, without electrons, at most 30 of each."
  },
  {
   "property": "C103",
   "status": "proved",
   "theorems": [
    "CGMF.Props.C103_start",
    "CGMF.Props.C103_levden"
   ],
   "note": "Independent uniform numbers in place of the generator; the spin distribution is a parameter."
  },
  {
   "property": "C104",
   "status": "partial",
   "theorems": [
    "CGMF.Props.C104_mass_partial",
    "CGMF.Props.C104_tke_partial",
    "CGMF.Props.C104_spontaneous",
    "CGMF.Props.C104_missing_file",
    "CGMF.Props.C104_last_line",
    "CGMF.Props.C104_long_line"
   ],
   "note": "Files whose lines fit the buffer and end with a newline, without blank line before the first row of mass yields; the other cases are refuted. Conversion of words to numbers is a parameter."
  },
  {
   "property": "C105",
   "status": "partial",
   "theorems": [
    "CGMF.Props.C105_own",
    "CGMF.Props.C105_fallback_partial",
    "CGMF.Props.C105_unset",
    "CGMF.Props.C105_first_chance",
    "CGMF.Props.C105_continuous",
    "CGMF.Props.C105_peak",
    "CGMF.Props.C105_viola"
   ],
   "note": "Fallback proved when the compound nucleus has a row; otherwise the result is undefined. The cube root of the mass is a parameter of the systematics."
  },
  {
   "property": "C106",
   "status": "partial",
   "theorems": [
    "CGMF.Props.C106_text",
    "CGMF.Props.C106_levels",
    "CGMF.Props.C106_missing_file",
    "CGMF.Props.C106_short",
    "CGMF.Props.C106_truncated"
   ],
   "note": "Proved for every well-formed file and for files cut after a line; refuted for a file cut inside its last level line. atoi and atof are parameters; what is made of the records is C28, C29 and C67."
  },
  {
   "property": "C107",
   "status": "partial",
   "theorems": [
    "CGMF.Props.C107_parameters",
    "CGMF.Props.C107_parameters_overrun",
    "CGMF.Props.C107_missing_file",
    "CGMF.Props.C107_ratio_partial",
    "CGMF.Props.C107_unlisted",
    "CGMF.Props.C107_ratio_overrun",
    "CGMF.Props.C107_sign"
   ],
   "note": "Parameters proved for all well-formed files; ratios for listed targets, and for all targets with exactly ten rows as in the shipped file. atoi and atof are parameters."
  },
  {
   "property": "C108",
   "status": "proved",
   "theorems": [
    "CGMF.Props.C108_parameter",
    "CGMF.Props.C108_history",
    "CGMF.Props.C108_scaling",
    "CGMF.Props.C108_joint"
   ],
   "note": "Reals with real exp; A^(5/3) is a parameter; independent uniform numbers in place of the generator; total excitation energy not negative (otherwise the pair is drawn again, C63)."
  },
  {
   "property": "C109",
   "status": "partial",
   "theorems": [
    "CGMF.Props.C109_joint",
    "CGMF.Props.C109_tke_partial",
    "CGMF.Props.C109_pair",
    "CGMF.Props.C109_undefined",
    "CGMF.Props.C109_momenta"
   ],
   "note": "Temperature-ratio sharing, kinetic energies at which sharing and spin parameters are defined; momenta defined for all kinetic energies from a threshold on, shown without pre-fission neutrons and for isotropic fission. 'Returned with probability one' is refuted: the kinetic energy is not cut from below."
  },
  {
   "property": "C110",
   "status": "proved",
   "theorems": [
    "CGMF.Props.C110_pass",
    "CGMF.Props.C110_neutron",
    "CGMF.Props.C110_photon",
    "CGMF.Props.C110_level",
    "CGMF.Props.C110_forced",
    "CGMF.Props.C110_bin",
    "CGMF.Props.C110_ends"
   ],
   "note": "Reals; independent uniform numbers in place of the generator. The spin compared with the levels in a forced transition is the spin index (C21 shows that this is half a unit low for nuclei of odd mass). Ending needs a level within 100 units of spin."
  },
  {
   "property": "C111",
   "status": "partial",
   "theorems": [
    "CGMF.Props.C111_own",
    "CGMF.Props.C111_distribution",
    "CGMF.Props.C111_absent",
    "CGMF.Props.C111_missing",
    "CGMF.Props.C111_long_line",
    "CGMF.Props.C111_cut"
   ],
   "note": "Proved for every well-formed file (and energies inside the table, C50); refuted for long comments and files that end too early. Conversion of words to numbers is a parameter."
  },
  {
   "property": "C112",
   "status": "partial",
   "theorems": [
    "CGMF.Props.C112_defined",
    "CGMF.Props.C112_sampled",
    "CGMF.Props.C112_law_partial",
    "CGMF.Props.C112_forward",
    "CGMF.Props.C112_isotropic",
    "CGMF.Props.C112_zero",
    "CGMF.Props.C112_gap",
    "CGMF.Props.C112_refuted"
   ],
   "note": "Reals with real sinh. Range and exact outcome for every table; the fitted law where the fit is not negative; refuted for the shipped coefficients at 18 MeV."
  },
  {
   "property": "C113",
   "status": "proved",
   "theorems": [
    "CGMF.Props.C113_pattern",
    "CGMF.Props.C113_chained",
    "CGMF.Props.C113_kinds",
    "CGMF.Props.C113_multiplicity"
   ],
   "note": "Reals; independent uniform numbers in place of the generator. Transmission coefficients and densities are parameters, measurable in the energy, and every continuum state has an open photon channel (C84 proves the coefficients of the code positive)."
  },
  {
   "property": "C114",
   "status": "proved",
   "theorems": [
    "CGMF.Props.C114_history",
    "CGMF.Props.C114_decay"
   ],
   "note": "As C113; branching ratios add up to one; no coincidence window, or levels of zero half-life in the last nucleus; decays that start in the continuum (those that start on a level are C86)."
  },
  {
   "property": "C115",
   "status": "partial",
   "theorems": [
    "CGMF.Props.C115_joint",
    "CGMF.Props.C115_positive",
    "CGMF.Props.C115_ends",
    "CGMF.Props.C115_event",
    "CGMF.Props.C115_first_chance",
    "CGMF.Props.C115_threshold"
   ],
   "note": "Reals; independent uniform numbers in place of the generator. Spectra are parameters, non-negative and not identically zero over the open bins; positivity of the energies also needs them to vanish at energy zero, as those of the code do. Refuted less than one bin above the barrier. The first neutron uses only bins strictly above the barrier, later ones also a bin exactly at it: this difference is part of the law proved."
  },
  {
   "property": "C116",
   "status": "proved",
   "theorems": [
    "CGMF.Props.C116_fragment",
    "CGMF.Props.C116_run"
   ],
   "note": "Exact arithmetic, any ordered field. The state that survives a decay in the model is the history array, the time stamps, the largest spin index of each nucleus and its energy; transmission coefficients and level densities are parameters, the same in both programs (C81_stale shows that without a matching energy the level densities do keep a spin cut-off of an earlier nucleus)."
  },
  {
   "property": "C117",
   "status": "proved",
   "theorems": [
    "CGMF.Props.C117_events",
    "CGMF.Props.C117_pair"
   ],
   "note": "Reals; independent uniform numbers in place of the generator. Conditions of C113/C114 for every fragment: chains without dead ends, proper level schemes, measurable transmission coefficients, no coincidence window or zero half-lives, room in the arrays. The initial energies and spins of the fragments are given (their law is C109)."
  },
  {
   "property": "C118",
   "status": "partial",
   "theorems": [
    "CGMF.Props.C118_weights",
    "CGMF.Props.C118_symmetric_sign",
    "CGMF.Props.C118_symmetric_width",
    "CGMF.Props.C118_shift",
    "CGMF.Props.C118_shipped_partial",
    "CGMF.Props.C118_negative",
    "CGMF.Props.C118_monotone"
   ],
   "note": "Reals with the real exponential. Weights, means, widths and the shift for every row; the sign of the symmetric weight decided exactly and for all shipped rows; refuted for the symmetric width and for two shipped rows at thermal energy."
  },
  {
   "property": "C119",
   "status": "partial",
   "theorems": [
    "CGMF.Props.C119_cut_partial",
    "CGMF.Props.C119_between",
    "CGMF.Props.C119_totals",
    "CGMF.Props.C119_complete",
    "CGMF.Props.C119_pairing",
    "CGMF.Props.C119_wrong_number"
   ],
   "note": "Texts are lists of characters, numbers rationals. Every cut of every rank file; refuted for the pairing of three fragments and for the last number, with witnesses."
  },
  {
   "property": "C120",
   "status": "partial",
   "theorems": [
    "CGMF.Props.C120_cut_partial",
    "CGMF.Props.C120_totals",
    "CGMF.Props.C120_complete",
    "CGMF.Props.C120_pairing",
    "CGMF.Props.C120_wrong_number"
   ],
   "note": "np.loadtxt is modelled as splitting at blanks, conversion, and refusal of rows of unequal length; comments are not modelled. Every cut of every file; refuted for three rows and for the last component, with witnesses."
  },
  {
   "property": "C121",
   "status": "proved",
   "theorems": [
    "CGMF.Props.C121_spectrum",
    "CGMF.Props.C121_populated"
   ],
   "note": "Reals with the real square root and exponential. Masses and optical model are parameters; the incident energy leaves an excitation energy between half a bin and 38 MeV and fits the grid. That the spectrum is not zero is proved for excitation energies above the pairing energy plus 38.4/N MeV."
  },
  {
   "property": "C122",
   "status": "proved",
   "theorems": [
    "CGMF.Props.C122_joint",
    "CGMF.Props.C122_evaporation",
    "CGMF.Props.C122_preequilibrium"
   ],
   "note": "Reals; independent uniform numbers in place of the generator. Optical model and level density are parameters with positive values; the barrier is at least one bin; the grids are those of the set-up. The last condition (more than one bin above the barrier) is needed, see C115_threshold."
  },
  {
   "property": "C123",
   "status": "proved",
   "theorems": [
    "CGMF.Props.C123_range",
    "CGMF.Props.C123_norm",
    "CGMF.Props.C123_rest"
   ],
   "note": "Double arithmetic: every operation rounded to a nearest number of 53 bits with exponent at least -1074, any rule for ties; no overflow, no fused or extended operations. A component of at least 2^-400 is assumed."
  },
  {
   "property": "C124",
   "status": "proved",
   "theorems": [
    "CGMF.Props.C124_isotropic",
    "CGMF.Props.C124_sine",
    "CGMF.Props.C124_fragment",
    "CGMF.Props.C124_emission",
    "CGMF.Props.C124_table",
    "CGMF.Props.C124_anisotropic"
   ],
   "note": "Double arithmetic as in C123. Library sine and cosine are parameters with values in [-1,1]; the anisotropy coefficient is between 1/2 and 4 (shipped: 1 to 1.84). The table of pre-equilibrium neutrons is covered by C124_table where its rows rise by at least 2^-20."
  },
  {
   "property": "C125",
   "status": "partial",
   "theorems": [
    "CGMF.Props.C125_index",
    "CGMF.Props.C125_window",
    "CGMF.Props.C125_charge",
    "CGMF.Props.C125_mass",
    "CGMF.Props.C125_bounds",
    "CGMF.Props.C125_overshoot"
   ],
   "note": "Double arithmetic as in C123; random numbers are doubles in [0,1). Indices stay in the table for windows that do not cross a power of two; refuted for windows starting at three times their length, with the largest random number as witness."
  },
  {
   "property": "C126",
   "status": "partial",
   "theorems": [
    "CGMF.Props.C126_interval",
    "CGMF.Props.C126_zero",
    "CGMF.Props.C126_fallback",
    "CGMF.Props.C126_chance",
    "CGMF.Props.C126_chance_none",
    "CGMF.Props.C126_missed"
   ],
   "note": "Double arithmetic as in C123; total weight at most 5/4. Probabilities as in C149. Intervals within N 2^-51 of the exact ones; refuted as an equality by seventeen weights adding up to one."
  },
  {
   "property": "C127",
   "status": "proved",
   "theorems": [
    "CGMF.Props.C127_event",
    "CGMF.Props.C127_fragment",
    "CGMF.Props.C127_again",
    "CGMF.Props.C127_limit",
    "CGMF.Props.C127_seen"
   ],
   "note": "Reals; independent uniform numbers in place of the generator. One fissioning nucleus with its tables, the conditions of C109 (Setting) and of C114 and C117 (Ready), arrays that hold the particles, fragments that cannot reach the speed of light; over the set of kinetic energies the chain of nuclei of each fragment is the same (split the set otherwise). Sampling again when a fragment has exactly no energy multiplies by a geometric series (C127_again), in the limit the probability given that no pass fails. The direction cosines computed at the end without random numbers are left out (C35 to C41, C123)."
  },
  {
   "property": "C128",
   "status": "partial",
   "theorems": [
    "CGMF.Props.C128_same_number",
    "CGMF.Props.C128_start",
    "CGMF.Props.C128_independent",
    "CGMF.Props.C128_one_object_partial",
    "CGMF.Props.C128_each",
    "CGMF.Props.C128_refuted",
    "CGMF.Props.C128_all_alike"
   ],
   "note": "Reals; independent uniform numbers in place of the generator. Tables and energies per choice are parameters (the properties of a fission asked for must be observable, shown for tables that depend on a discrete choice). With one object per fission: independent. For a yields file: independent only given the choices of the constructor; refuted as stated, with files of two kinds of fission having probability zero."
  },
  {
   "property": "C129",
   "status": "proved",
   "theorems": [
    "CGMF.Props.C129_program",
    "CGMF.Props.C129_bounded",
    "CGMF.Props.C129_peak",
    "CGMF.Props.C129_stops",
    "CGMF.Props.C129_absent",
    "CGMF.Props.C129_yields_refuted",
    "CGMF.Props.C129_yields_delete"
   ],
   "note": "Every array on the path of an event is a block of its own; contents are not represented, what decides the branches (data, random numbers, energies) is an arbitrary choice. Memory exhaustion is not modelled. The last two theorems refute the claim for fission yields (cgmfYields)."
  },
  {
   "property": "C130",
   "status": "proved",
   "theorems": [
    "CGMF.Props.C130_seeds",
    "CGMF.Props.C130_events",
    "CGMF.Props.C130_constructor",
    "CGMF.Props.C130_range",
    "CGMF.Props.C130_near",
    "CGMF.Props.C130_zero",
    "CGMF.Props.C130_guard_needed",
    "CGMF.Props.C130_calls",
    "CGMF.Props.C130_draws"
   ],
   "note": "The engine is modelled after the C++ standard (std::mt19937), the conversion to double after generate_canonical of the standard with the guard of libstdc++ against 1; these are library code, not in the repository. Different words are proved, not different doubles: each double drops up to eleven bits of its two words."
  },
  {
   "property": "C131",
   "status": "proved",
   "theorems": [
    "CGMF.Props.C131_mesh",
    "CGMF.Props.C131_top",
    "CGMF.Props.C131_neutron",
    "CGMF.Props.C131_neutron_next",
    "CGMF.Props.C131_level",
    "CGMF.Props.C131_photon",
    "CGMF.Props.C131_photon_level",
    "CGMF.Props.C131_floor",
    "CGMF.Props.C131_velocity",
    "CGMF.Props.C131_balance"
   ],
   "note": "Double arithmetic as in C123. Separation energies between -64 and 64 MeV; the exact first bin for energies from 0.2 MeV on. A channel of energy zero is closed by the first line of omCalc (omcalc.cpp:45), here the hypothesis that the tested energy is positive."
  },
  {
   "property": "C132",
   "status": "partial",
   "theorems": [
    "CGMF.Props.C132_exact",
    "CGMF.Props.C132_partial",
    "CGMF.Props.C132_cgm_first",
    "CGMF.Props.C132_event_first",
    "CGMF.Props.C132_ground",
    "CGMF.Props.C132_refuted",
    "CGMF.Props.C132_refuted_event"
   ],
   "note": "The window of every call of every sequence is determined exactly; the claim is refuted with a nucleus that has an isomer, and proved for sequences whose calls are all entitled to the same window. Fission events and yields are parameters here."
  },
  {
   "property": "C133",
   "status": "proved",
   "theorems": [
    "CGMF.Props.C133_doppler",
    "CGMF.Props.C133_positive",
    "CGMF.Props.C133_vector",
    "CGMF.Props.C133_recorded",
    "CGMF.Props.C133_photon"
   ],
   "note": "Double arithmetic as in C123; sin, cos and acos of the library are parameters assumed to be accurate to 2^-50 (cosine of the arc cosine, Pythagorean identities, cosine at most one), which the exact functions satisfy. The formula itself uses the angle to a fixed axis, not to the fragment (see C41)."
  },
  {
   "property": "C134",
   "status": "proved",
   "theorems": [
    "CGMF.Props.C134_table",
    "CGMF.Props.C134_sums"
   ],
   "note": "Means are exact (rational numbers), formats round to nearest, ties to even, as Python does for the exact value; the rounding of numpy's mean is not modelled. The labels are without the markup of the notebook."
  },
  {
   "property": "C135",
   "status": "partial",
   "theorems": [
    "CGMF.Props.C135_threshold_partial",
    "CGMF.Props.C135_refuted",
    "CGMF.Props.C135_counts"
   ],
   "note": "Exact difference between the two conventions for every history and threshold; the agreement is refuted for every photon energy in the file taken as threshold."
  },
  {
   "property": "C136",
   "status": "proved",
   "theorems": [
    "CGMF.Props.C136_table"
   ],
   "note": "Composition of C08, C12, C14, C64, C119 and C134. The random engine and the generation of one event are parameters (an arbitrary function of reaction, window and engine state); the getters are assumed to show the content of the event (C03, C04). Rational numbers; the files are not cut and not mixed up. Files that cannot be loaded are excluded by hypothesis (C64)."
  },
  {
   "property": "C137",
   "status": "proved",
   "theorems": [
    "CGMF.Props.C137_agree"
   ],
   "note": "Composition of C10 and C136; parameters and hypotheses as there. The getters of the driver are those of the printed events (entry or -1 outside, C03). The words of the summary are not modelled."
  },
  {
   "property": "C138",
   "status": "partial",
   "theorems": [
    "CGMF.Props.C138_iff",
    "CGMF.Props.C138_events_partial",
    "CGMF.Props.C138_refuted",
    "CGMF.Props.C138_summary",
    "CGMF.Props.C138_seeds"
   ],
   "note": "False for long runs. A sum of MPI_Reduce outside the range counts as undefined like a signed overflow in C++; the order of its additions is that of the ranks."
  },
  {
   "property": "C139",
   "status": "partial",
   "theorems": [
    "CGMF.Props.C139_atoi",
    "CGMF.Props.C139_atof",
    "CGMF.Props.C139_options",
    "CGMF.Props.C139_refuted"
   ],
   "note": "Numbers are read exactly; that other words are refused is false. atof gives the exact rational, not the nearest double; hexadecimal numbers, inf, nan and whole numbers outside the range of int are not modelled."
  },
  {
   "property": "C140",
   "status": "partial",
   "theorems": [
    "CGMF.Props.C140_partial",
    "CGMF.Props.C140_null",
    "CGMF.Props.C140_refuted",
    "CGMF.Props.C140_unresolved"
   ],
   "note": "The accessors are right; seven declared functions do not exist. The generation of the event is a parameter (any content); int and float results are shown as exact numbers. Deleting events is in C59."
  },
  {
   "property": "C141",
   "status": "proved",
   "theorems": [
    "CGMF.Props.C141_masses",
    "CGMF.Props.C141_deformations",
    "CGMF.Props.C141_levels",
    "CGMF.Props.C141_parameters",
    "CGMF.Props.C141_ratio",
    "CGMF.Props.C141_printed_int",
    "CGMF.Props.C141_printed_fixed"
   ],
   "note": "C94, C106 and C107 with the conversions of C139 in place of parameters. Values are exact rationals, not the nearest doubles; spins are halves of whole numbers; whole numbers are in the range of int. The tables read with operator>> (temperatures, level densities) stay with the conversion as parameter (C94)."
  },
  {
   "property": "C142",
   "status": "proved",
   "theorems": [
    "CGMF.Props.C142_gaussian",
    "CGMF.Props.C142_value",
    "CGMF.Props.C142_stops",
    "CGMF.Props.C142_tke",
    "CGMF.Props.C142_positive"
   ],
   "note": "C99 in double arithmetic. The library's logarithm is a parameter with a relative error of at most 2^-20 below 1; each operation is rounded on its own; overflow is not described (all numbers here are below 2^128). The average and the width are taken as numbers of type double up to 512 and 32 MeV."
  },
  {
   "property": "C143",
   "status": "partial",
   "theorems": [
    "CGMF.Props.C143_high",
    "CGMF.Props.C143_missing",
    "CGMF.Props.C143_refuted"
   ],
   "note": "Energies above the mesh and nuclei without mass are refused; energies of zero or below are not. Unknown spins of levels are taken as drawn; the initial population is a parameter (any); whether level density parameters exist is a parameter that stops the process."
  },
  {
   "property": "C144",
   "status": "partial",
   "theorems": [
    "CGMF.Props.C144_between",
    "CGMF.Props.C144_silent",
    "CGMF.Props.C144_fragments",
    "CGMF.Props.C144_odd",
    "CGMF.Props.C144_refuted"
   ],
   "note": "Cuts between events and between the two fragments of an event, for all ranks; a cut inside a line, which joins it to the first line of the next file, is only covered for the last rank (C119). C144_fragments, C144_odd and C144_refuted are for events without pre-fission neutrons."
  },
  {
   "property": "C145",
   "status": "proved",
   "theorems": [
    "CGMF.Props.C145_neutron",
    "CGMF.Props.C145_fragment",
    "CGMF.Props.C145_divide",
    "CGMF.Props.C145_direction",
    "CGMF.Props.C145_fission"
   ],
   "note": "C35 to C37 in double arithmetic. The masses are parameters with bounds that nuclei of fission meet (neutron at most 960 MeV, fissioning nucleus between 2^17 and 2^18 MeV, emitting fragment at least 2^16 MeV, that is 71 mass units); sine and cosine of the library are at most 1 and satisfy the Pythagorean identity within 2^-50; each operation is rounded on its own; overflow is not described. Up to 7 neutrons before fission and 25 from each fragment (the code has room for fewer). Energies below 2^-300 MeV are left out of the relative error. Directions from a table: C124."
  },
  {
   "property": "C146",
   "status": "proved",
   "theorems": [
    "CGMF.Props.C146_number",
    "CGMF.Props.C146_word",
    "CGMF.Props.C146_temperatures",
    "CGMF.Props.C146_levels",
    "CGMF.Props.C146_point"
   ],
   "note": "Extraction of int and double from a stream character by character (ISO C++ num_get with the classic locale, decimal numbers; the nearest double is left out). C146_word shows that for such numbers the extraction by words used in C94, C97, C104, C111 is the same. The first row of level densities is lost (C94_refuted)."
  },
  {
   "property": "C147",
   "status": "proved",
   "theorems": [
    "CGMF.Props.C147_available",
    "CGMF.Props.C147_share",
    "CGMF.Props.C147_balance",
    "CGMF.Props.C147_kinetic",
    "CGMF.Props.C147_ends",
    "CGMF.Props.C147_steady",
    "CGMF.Props.C147_table",
    "CGMF.Props.C147_tables_end",
    "CGMF.Props.C147_tables_steady"
   ],
   "note": "C42, C43 and C53 in double arithmetic. Mass excesses, separation energy and ratio of temperatures are parameters with bounds; each operation is rounded on its own. The tolerance is any double (0.01 in the code is one above 1/128). Termination needs tables without jumps: C43_not_terminating is a table for which the loop never ends. 30 MeV and 1/16 are sufficient for the rows of data/ldp.dat as shipped; for more energy C147_steady gives the condition."
  },
  {
   "property": "C148",
   "status": "proved",
   "theorems": [
    "CGMF.Props.C148_summary",
    "CGMF.Props.C148_split",
    "CGMF.Props.C148_mean"
   ],
   "note": "C10 and C11 in double arithmetic. Whole numbers are exact (C138). MPI_Reduce and numpy are any order and grouping of roundings to nearest; a library that adds in a wider format is not covered. The rounding of printf is not in it (C137)."
  },
  {
   "property": "C149",
   "status": "proved",
   "theorems": [
    "CGMF.Props.C149_index",
    "CGMF.Props.C149_accept",
    "CGMF.Props.C149_attempt",
    "CGMF.Props.C149_law",
    "CGMF.Props.C149_from_zero",
    "CGMF.Props.C149_charge",
    "CGMF.Props.C149_mass",
    "CGMF.Props.C149_spin"
   ],
   "note": "C50 and C54 with the discrete random numbers of C130 and in double arithmetic. The outputs of the engine for different turns are taken as independent and uniform (the engine itself is C130); the exponential of the spin weights is a parameter (any weights that are not negative, one of them at least 2^-400). Windows for which C125_overshoot shows an index past the end are left out."
  },
  {
   "property": "C150",
   "status": "proved",
   "theorems": [
    "CGMF.Props.C150_cosine",
    "CGMF.Props.C150_azimuth",
    "CGMF.Props.C150_direction",
    "CGMF.Props.C150_parity"
   ],
   "note": "C100 and the parities of C54 with the discrete random numbers of C130 and in double arithmetic. The outputs of the engine for the two numbers are taken as independent and uniform. The sine and cosine of the library are not in it (C124)."
  },
  {
   "property": "C151",
   "status": "proved",
   "theorems": [
    "CGMF.Props.C151_photon",
    "CGMF.Props.C151_equal",
    "CGMF.Props.C151_left"
   ],
   "note": "C28, C86 and C126 from the level file to the photon, with the discrete random numbers of C130 and in double arithmetic. The outputs of the engine for the two random numbers are taken as independent and uniform. Intensities and conversion coefficients are those read from the file (C106)."
  },
  {
   "property": "C152",
   "status": "proved",
   "theorems": [
    "CGMF.Props.C152_time",
    "CGMF.Props.C152_window",
    "CGMF.Props.C152_rises"
   ],
   "note": "C86_halflife with the discrete random numbers of C130 and in double arithmetic. The logarithm of the library is a parameter with a relative error eta of at most 2^-10 (for C152_rises: not positive below one); the random number zero gives an infinite time, as in the code. C152_window is for the first level of a cascade."
  },
  {
   "property": "C153",
   "status": "proved",
   "theorems": [
    "CGMF.Props.C153_path"
   ],
   "note": "C86 with the discrete random numbers of C130 and in double arithmetic, from the intensities in the level file. Each pass of the loop has its own independent uniform outputs of the engine; times and the coincidence window are left out (C152)."
  },
  {
   "property": "C154",
   "status": "proved",
   "theorems": [
    "CGMF.Props.C154_forced",
    "CGMF.Props.C154_bypass"
   ],
   "note": "C110_forced with the discrete random numbers of C130, where two of the numbers can be equal. The outputs of the engine for the numbers are taken as independent and uniform. Spins are halves of whole numbers and their differences exact."
  },
  {
   "property": "C155",
   "status": "proved",
   "theorems": [
    "CGMF.Props.C155_ends",
    "CGMF.Props.C155_inside",
    "CGMF.Props.C155_uniform"
   ],
   "note": "The bins of C131 with the discrete random numbers of C130. All bins have the width ENERGY_BIN (no private energy grid). The widths of the bins are those in double arithmetic."
  },
  {
   "property": "C156",
   "status": "proved",
   "theorems": [
    "CGMF.Props.C156_level",
    "CGMF.Props.C156_photon",
    "CGMF.Props.C156_neutron",
    "CGMF.Props.C156_cut",
    "CGMF.Props.C156_none"
   ],
   "note": "C110 with the discrete random numbers of C130 and in double arithmetic, for given populations (any numbers; that they follow the transmissions is C87). Each outcome is counted over the random numbers it uses. The outputs of the engine are taken as independent and uniform."
  },
  {
   "property": "C157",
   "status": "proved",
   "theorems": [
    "CGMF.Props.C157_total",
    "CGMF.Props.C157_competition",
    "CGMF.Props.C157_spectrum"
   ],
   "note": "Strengthens C126 and C156: the error of one state does not grow with its place in the list. For given populations, as C156. States of the decaying nucleus below the cut are forced to levels and do not count in C157_spectrum (C156_cut). The outputs of the engine are taken as independent and uniform."
  },
  {
   "property": "C158",
   "status": "proved",
   "theorems": [
    "CGMF.Props.C158_limits",
    "CGMF.Props.C158_energy",
    "CGMF.Props.C158_forward"
   ],
   "note": "In exact arithmetic, with independent uniform random numbers (as C100). For neutrons of the statistical decay; those before equilibrium have angles from a table (C124_table)."
  },
  {
   "property": "C159",
   "status": "partial",
   "theorems": [
    "CGMF.Props.C159_close_partial",
    "CGMF.Props.C159_refuted"
   ],
   "note": "The code applies the formula of the other frame (C41_formula_refuted), so the law is another one for every speed: more than half of the photons are recorded with no more energy than they were emitted with, where it should be less than half (C159_refuted). The part that holds: within the limits the probability of at most E is the intended one or more by at most the speed b (C159_close_partial). Missing: equality of the laws, which is false. Exact arithmetic, uniform random numbers."
  },
  {
   "property": "C160",
   "status": "proved",
   "theorems": [
    "CGMF.Props.C160_momentum",
    "CGMF.Props.C160_square",
    "CGMF.Props.C160_velocity",
    "CGMF.Props.C160_energy"
   ],
   "note": "In exact arithmetic, with independent uniform random numbers. For given energies of the neutrons (their laws: C87, C110, C157); neutrons of the statistical decay."
  },
  {
   "property": "C161",
   "status": "partial",
   "theorems": [
    "CGMF.Props.C161_partial",
    "CGMF.Props.C161_refuted"
   ],
   "note": "Same cause as C159: for every speed of the fragment photons lose energy on average in the code, while the Doppler shift over isotropic directions gives more (C161_refuted, both averages computed). The part that holds: the average is at least e sqrt(1-b^2) (C161_partial). Missing: the average itself, which is another one. Exact arithmetic, uniform random numbers."
  }
 ]
}