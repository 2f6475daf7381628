{"id": "C01", "title": "Input gate accepts exactly the documented reactions", "statement": "Constructing a fission event (cgmfEvent / cgmf_genfissevent / CLI -i -e) proceeds past input checking if and only if the pair (target ZAID, incident energy) is in the supported table: energy 0 for a spontaneous-fission isotope, or 0 < E <= 20 MeV for a neutron-induced isotope; every other pair ends the process before any fragment is sampled.", "quantifier": "all integer ZAIDs and all incident energies", "why_tests_cant": "the input space is all integers times all reals; only a proof shows that no unlisted pair slips through and no listed pair is refused", "anchors": ["libcgmf/src/cgmfEvents.cpp: cgmfEvent::checkInput, cgmfEvent::cgmfEvent"]}
{"id": "C02", "title": "Compound nucleus and the second reaction gate agree with the first", "statement": "Whenever an event is generated, the fissioning nucleus has charge Z = ZAID/1000 and mass A = ZAID%1000 for spontaneous fission or A+1 for neutron-induced fission, the symmetric mass is its half, and the option table in the fragment generator accepts the reaction that the input gate accepted.", "quantifier": "all inputs accepted by the input gate", "why_tests_cant": "agreement of two hand-written tables over all accepted inputs (including the negative-id encoding) cannot be sampled", "anchors": ["libcgmf/src/FissionFragments.cpp: FissionFragments::FissionFragments, FissionFragments::setOptions", "libcgmf/src/cgmfEvents.cpp: checkInput"]}
{"id": "C03", "title": "Particle getters are total and bounded", "statement": "Every per-particle getter (neutron, photon, pre-fission neutron: energy, direction, age) returns the stored value of particle i when 0 <= i < multiplicity and -1 for every other index, and never reads outside the storage of the event.", "quantifier": "all integer indices, all events, all multiplicities", "why_tests_cant": "an index domain of all ints; out-of-range reads often pass silently in a test", "anchors": ["libcgmf/include/cgmfEvents.h: getNeutronEnergy ... getPreFissionNeutronDircosw", "libcgmf/src/cgmfEvents_capi.cpp: cgmf_getNeutronEnergy and siblings"]}
{"id": "C04", "title": "Event lists are light fragment first, then heavy, nothing lost", "statement": "In every event the neutron (photon) list seen by the getters has length nuLF+nuHF (nugLF+nugHF), its first nuLF entries are the light-fragment particles in emission order and the rest the heavy-fragment particles, and ages are the supplied emission time for neutrons and emission time plus level delay for photons.", "quantifier": "all fragment pairs, all multiplicities, all emission times", "why_tests_cant": "index arithmetic with offsets must be right for every pair of multiplicities, including zero", "anchors": ["libcgmf/src/cgmfEvents.cpp: cgmfEvent::cgmfEvent 440-512"]}
{"id": "C05", "title": "Data directory is normalised with exactly one separator", "statement": "After setting the data path the effective directory is non-empty, ends in '/', has the user's path as prefix when one was given (and otherwise the first existing default directory), setting it again with its own value changes nothing, and with no path and no default directory the process exits.", "quantifier": "all path strings and all states of the file system", "why_tests_cant": "ranges over all strings and all existence patterns of the default directories", "anchors": ["libcgmf/src/cgmfEvents.cpp: checkdatapath, setdatapath"]}
{"id": "C06", "title": "Baryon number and charge are conserved event by event", "statement": "In every event produced by the generator, A_light + A_heavy + (number of pre-fission neutrons) equals the mass number of the initial fissioning nucleus and Z_light + Z_heavy equals its charge, and A_light <= A_heavy whichever of the two fragments was sampled.", "quantifier": "all reactions, all numbers of pre-fission neutrons, all random streams", "why_tests_cant": "must hold for every random stream and every yield table, not for the events of one seed", "anchors": ["libcgmf/src/FissionFragments.cpp: sampleFissionFragments, constructYields", "libcgmf/src/cgmfEvents.cpp: cgmfEvent::cgmfEvent"]}
{"id": "C07", "title": "Seeds of a parallel run tile one contiguous block", "statement": "In a run with np ranks of n events each and starting event s, rank r event i uses seed s + r*n + i; over the whole run every seed in [s, s+np*n) is used exactly once and no other seed is used.", "quantifier": "all np, n, s", "why_tests_cant": "a collision or gap may only appear for particular rank counts", "anchors": ["utils/cgmf/cgmf.cpp: main 60-111"]}
{"id": "C08", "title": "Each event is a function of its seed alone, so runs can be split", "statement": "The event written for seed k depends only on the reaction, the time window and k: not on how many events were generated before it, nor on how seeds are distributed over ranks; running N events equals concatenating any split of the seed range with the same options.", "quantifier": "all run lengths, all splits, all event generators that keep no state but the documented library globals", "why_tests_cant": "history independence quantifies over all prefixes of earlier events", "anchors": ["utils/cgmf/cgmf.cpp: main", "libcgmf/src/cgmfEvents.cpp: cgmfEvent::cgmfEvent (firstcalc)", "libcgmf/src/specmc.cpp: set_time_coincidence_window"]}
{"id": "C09", "title": "Time-coincidence window applies to the event it is given to", "statement": "The photon time window in force while an event is generated is the one passed for that event. (The code sets it only for the first event of the process: full statement refuted, first-event and constant-window versions proved.)", "quantifier": "all sequences of events with arbitrary windows", "why_tests_cant": "depends on the history of earlier calls in the process", "anchors": ["libcgmf/src/cgmfEvents.cpp: cgmfEvent::cgmfEvent 383-388", "libcgmf/src/specmc.cpp: set_time_coincidence_window, mcGammaCascade"]}
{"id": "C10", "title": "Run summary equals the mean over all events of all ranks", "statement": "The averages printed at the end of a run (masses, charges, TKE, spins, multiplicities, cm and lab neutron energies, photon energies) are the exact event averages or per-particle averages over the union of the events of all ranks, independent of the distribution of events over ranks.", "quantifier": "all lists of events, all numbers of ranks", "why_tests_cant": "accumulators and reductions over arbitrary many events and ranks", "anchors": ["utils/cgmf/cgmf.cpp: recordEvent, printSummaryEvents"]}
{"id": "C11", "title": "Run summary multiplicities and energies are mutually consistent", "statement": "Per-fragment counters add up: total neutrons recorded in the summary equal light + heavy + pre-fission neutrons of the recorded events, and the light/heavy/pre-fission lab and cm neutron energy sums add up to the total sums.", "quantifier": "all sequences of recorded events", "why_tests_cant": "accumulator bookkeeping over arbitrary many events", "anchors": ["utils/cgmf/cgmf.cpp: recordEvent"]}
{"id": "C12", "title": "History file round trip", "statement": "Parsing with the Python toolkit the text that the driver writes returns, for every event, the same A, Z, U, J, parity, kinetic energies, multiplicities, momenta, neutron cm/lab and photon lists (values rounded to the printed precision), light and heavy fragment assigned correctly, for any multiplicities including zero and with or without photon ages.", "quantifier": "all lists of events, all multiplicities, both time-window modes", "why_tests_cant": "format is positional with optional lines; all combinations of presence/absence and counts must line up", "anchors": ["utils/cgmf/cgmf.cpp: printEventToFile, main", "tools/CGMFtk/histories.py: Histories._readHistories"]}
{"id": "C13", "title": "Yields file round trip", "statement": "For every run in yields mode the file has exactly two rows per event, and the toolkit's Yields reader recovers light-fragment data from even rows and heavy-fragment data from odd rows, with the optional event limit keeping exactly the first n events.", "quantifier": "all lists of yield events and all limits", "why_tests_cant": "alignment must hold for every number of events", "anchors": ["libcgmf/src/cgmfEvents.cpp: cgmfYields", "tools/CGMFtk/yields.py"]}
{"id": "C14", "title": "Rank files concatenate into one readable history", "statement": "The file of rank 0 followed by those of ranks 1..np-1 is parsed as the events of all ranks in seed order, while a file of rank > 0 alone is rejected rather than silently mis-read.", "quantifier": "all numbers of ranks and events per rank", "why_tests_cant": "ranges over all rank counts and contents", "anchors": ["utils/cgmf/cgmf.cpp: main (header on rank 0), readUserInput (file names)", "tools/CGMFtk/histories.py: _readHistories"]}
{"id": "C15", "title": "Emitted particles are partitioned without loss", "statement": "For every decay history, each emitted particle except the terminal marker appears exactly once, in order, among the reported neutrons, reported photons or (unreported) conversion electrons; so nu + nug + n_ic is the number of decay steps.", "quantifier": "all decay histories of any length", "why_tests_cant": "list partition over arbitrary histories", "anchors": ["libcgmf/src/specmc.cpp: recordEmittedParticlesFission, recordEmittedParticles"]}
{"id": "C16", "title": "Decay energy balance", "statement": "For every decay history, initial excitation energy = sum of cm energies of all emitted neutrons, photons and conversion electrons + sum of neutron separation energies along the chain + excitation energy of the final level.", "quantifier": "all random streams, all level schemes, all decay lengths", "why_tests_cant": "must hold for each of unboundedly many paths through the decay", "anchors": ["libcgmf/src/specmc.cpp: mcHistoryLoop, mcStoreHistory, mcGammaCascade"]}
{"id": "C17", "title": "Emitted energies are non-negative", "statement": "No neutron or photon is reported with a negative centre-of-mass energy, provided the level scheme is sorted and the starting energy lies above the discrete region.", "quantifier": "all random streams, grids and sorted level schemes", "why_tests_cant": "a negative energy may occur on rare bins only", "anchors": ["libcgmf/src/specmc.cpp: mcHistoryLoop, mcFindNext, mcStoreHistory", "libcgmf/src/setup.cpp: statSetupEnergyBin"]}
{"id": "C18", "title": "Decay history terminates within its capacity or is refused", "statement": "A history never holds more than 100 entries: the decay either ends with a terminal entry after at most 99 emissions or the process stops with an error; and the discrete cascade terminates whenever every level with non-zero index has branches summing to one to lower levels.", "quantifier": "all random streams", "why_tests_cant": "termination and array bounds over all paths", "anchors": ["libcgmf/src/specmc.cpp: mcHistoryLoop, mcStoreHistory, mcGammaCascade", "libcgmf/include/mchf.h: MAX_CASCADE"]}
{"id": "C19", "title": "Photon ages are non-decreasing and inside the window", "statement": "Within one fragment the reported level delays are >= 0, non-decreasing in emission order, zero for transitions from the continuum, and with a positive coincidence window no reported photon has a delay above the window.", "quantifier": "all random streams in (0,1), level schemes and windows", "why_tests_cant": "ranges over all paths of the cascade", "anchors": ["libcgmf/src/specmc.cpp: mcGammaCascade, recordEmittedParticlesFission"]}
{"id": "C20", "title": "Next-state selection is exact inverse-CDF sampling", "statement": "Given the Hauser-Feshbach populations and a uniform number r, the next state is the unique one whose cumulative-population interval contains r, in particular a state with zero population is never chosen for r > 0, each state is chosen on an interval whose length is its population, and only when the total is below r is the fallback used.", "quantifier": "all populations and all r", "why_tests_cant": "selection probabilities are a measure over reals", "anchors": ["libcgmf/src/specmc.cpp: mcFindNext"]}
{"id": "C21", "title": "Fallback transition respects its announced rule", "statement": "When the populations are exhausted the forced transition goes to a level of opposite parity with |dJ| < 2 and J+J' >= 1 if one exists, else to a level whose spin is the closest to the current one; and it never indexes outside the level list when there is at least one level within 100 units of spin.", "quantifier": "all level lists, spins, parities and random streams", "why_tests_cant": "error/fallback branches are rarely hit by tests", "anchors": ["libcgmf/src/specmc.cpp: mcFindNext 491-516, mcHistoryLoop 369-400"]}
{"id": "C22", "title": "Discrete cascade follows tabulated branches only", "statement": "Each step of the discrete gamma cascade goes from the current level to one of its tabulated daughter levels, the emitted energy is the level difference, and the returned level is either the ground state or the level that outlived the coincidence window.", "quantifier": "all level schemes and random streams", "why_tests_cant": "all paths through all level schemes", "anchors": ["libcgmf/src/specmc.cpp: mcGammaCascade"]}
{"id": "C23", "title": "Residual nucleus has lost exactly the reported neutrons", "statement": "At the end of the decay of a fragment (Z, A), the residual nucleus has charge Z and mass A - nu, and nu never exceeds the number of neutrons that was energetically open at the start (at most 9).", "quantifier": "all fragments and random streams", "why_tests_cant": "relation between nucleus index and neutron count over all paths", "anchors": ["libcgmf/src/specmc.cpp: mcHistoryLoop, mcFindNext", "libcgmf/src/setup.cpp: statSetupInitSystem, statTotalNeutrons"]}
{"id": "C24", "title": "Per-fragment particle storage is never overrun", "statement": "Writing the neutrons, photons and time stamps of one fragment never exceeds the 10/50/50 slots of the event record. (Refuted in general: the multiplicity check runs after the writes; proved under explicit bounds on the history.)", "quantifier": "all decay histories up to the history capacity", "why_tests_cant": "memory safety over all histories; a test needs the rare long history and a sanitizer", "anchors": ["libcgmf/src/specmc.cpp: recordEmittedParticlesFission, mcGammaCascade", "libcgmf/include/config-ff.h"]}
{"id": "C25", "title": "Excitation energy grid is well formed", "statement": "For every excitation energy the continuum grid has strictly decreasing bin energies, constant width, bin 0 is the initial energy, no bin lies below the last discrete level, and the number of continuum and total bins stays within the array limits (or the process stops).", "quantifier": "all excitation energies and level schemes", "why_tests_cant": "boundary cases over a real-valued input", "anchors": ["libcgmf/src/setup.cpp: statSetupEnergyBin"]}
{"id": "C26", "title": "Number of emittable neutrons is the energetic maximum", "statement": "The number of neutrons considered for a fragment is the largest k (capped at the supported maximum) such that the excitation energy exceeds the summed separation energies of the first k neutrons.", "quantifier": "all excitation energies and mass tables", "why_tests_cant": "loop boundary over all reals and mass tables", "anchors": ["libcgmf/src/setup.cpp: statTotalNeutrons"]}
{"id": "C27", "title": "Neutron separation energies telescope", "statement": "The sum of the separation energies of a chain of n neutron emissions equals M(Z,A-n) + n M_n - M(Z,A) computed from the same mass table, for every chain length, and each chain member has the charge of the fragment and one mass unit less than its predecessor.", "quantifier": "all nuclei, chain lengths and mass tables", "why_tests_cant": "all chain lengths and all tables", "anchors": ["libcgmf/src/setup.cpp: statSetupInitSystem", "libcgmf/src/masstable.cpp"]}
{"id": "C28", "title": "Gamma branching ratios are normalised", "statement": "After reading a level file (within the array limits) every level has at least one branch, its branching ratios are non-negative and sum to one, proportional to the listed intensities (equal shares when their sum is zero), and energies, spins, parities and half-lives are those of the file; too many levels stop the program and too many nuclei overrun the tables.", "quantifier": "all level schemes", "why_tests_cant": "all numbers of levels and branches", "anchors": ["libcgmf/src/ripl2levels.cpp: riplNormalizeBranch"]}
{"id": "C29", "title": "Level fix-up gives every kept level a way down", "statement": "Every excited level read from the file, also one without listed transitions, decays only to levels strictly below it; filling in unknown spins and parities never alters known ones, yields parities +-1 and spins of the right kind with the inverse-CDF rule, and leaves a spin unknown only if the random number is not below the total weight.", "quantifier": "all level schemes", "why_tests_cant": "all level schemes, including badly known ones", "anchors": ["libcgmf/src/ripl2levels.cpp: riplFixTransition", "libcgmf/src/setup.cpp: statFixDiscreteLevels"]}
{"id": "C30", "title": "Hauser-Feshbach step conserves flux", "statement": "Whenever the total transmission out of the parent state is positive, the populations added to gamma-continuum, gamma-discrete, neutron-continuum and neutron-discrete daughter states sum exactly to the parent population, and all added populations are non-negative.", "quantifier": "all transmission coefficients, grids, level schemes and parent populations", "why_tests_cant": "sum over a variable number of final states", "anchors": ["libcgmf/src/specmain.cpp: specCompoundDecay, specTransmissionSum", "libcgmf/src/gampop.cpp: specTransitionGamma", "libcgmf/src/parpop.cpp: specTransitionParticle", "libcgmf/src/stattrans.cpp"]}
{"id": "C31", "title": "Gamma and neutron transitions obey selection rules", "statement": "Population reaches only daughter states allowed by angular-momentum coupling and parity of the multipole (E1, M1, E2) or of the neutron partial wave (l, j); all other states get exactly zero from that step.", "quantifier": "all spins, parities, multipoles and partial waves", "why_tests_cant": "all combinations of indices", "anchors": ["libcgmf/src/gampop.cpp: specTransitionGamma, specTc2c, specTc2d", "libcgmf/src/parpop.cpp: specTransitionParticleCont, specTransitionParticleDisc"]}
{"id": "C32", "title": "Deterministic gamma cascade preserves population", "statement": "In the deterministic discrete cascade the ground-state population at the end equals the total initial level population (when branches sum to one and all daughters are lower), and the photon spectrum gains, per transition, the transferred population.", "quantifier": "all level schemes and initial populations", "why_tests_cant": "induction over any number of levels", "anchors": ["libcgmf/src/gamcas.cpp: specGammaCascade, specGammaDiscrete"]}
{"id": "C33", "title": "Initial population is a probability distribution", "statement": "The initial spin/parity population used to start the decay is non-negative and sums to one (single state: exactly the requested spin and parity; level-density: proportional to the spin distribution).", "quantifier": "all spins, parities and spin-cutoff values", "why_tests_cant": "sum over spins for arbitrary parameters", "anchors": ["libcgmf/src/popinit.cpp: statPopinitSingle, statPopinitLevden, statPopinitTransmission"]}
{"id": "C34", "title": "Fragment decay starts from the sampled excitation", "statement": "A fragment whose energy lies in the discrete region starts from the level closest to it from the documented direction. (Refuted: the code picks the level above the last one below; partial theorem gives what it does.)", "quantifier": "all level schemes and energies", "why_tests_cant": "boundary of a search over real-valued energy", "anchors": ["libcgmf/src/popinit.cpp: statStoreLevelExcite", "libcgmf/src/specmc.cpp: specMCMainFission"]}
{"id": "C35", "title": "Neutron emission conserves momentum", "statement": "For each emitted neutron the fragment momentum before equals fragment momentum after plus neutron lab momentum, the neutron's reported lab energy is the kinetic energy of its lab velocity, and its centre-of-mass speed matches its centre-of-mass energy.", "quantifier": "all momenta, masses, energies and emission angles", "why_tests_cant": "identity over reals for all directions", "anchors": ["libcgmf/src/kinematics.cpp: neutron_emission_boost, boost"]}
{"id": "C36", "title": "Momentum is conserved over the whole de-excitation", "statement": "After any number of neutron emissions, initial fragment momentum equals the reported post-emission momentum plus the sum of lab momenta of all its neutrons, and the mass used at step i is that of the nucleus that has already lost i neutrons.", "quantifier": "all emission sequences", "why_tests_cant": "induction over emission sequence", "anchors": ["libcgmf/src/kinematics.cpp: boost", "libcgmf/src/specmc.cpp: recordEmittedParticlesFission"]}
{"id": "C37", "title": "Fission kinematics conserves momentum including pre-fission neutrons", "statement": "Incident neutron momentum = light-fragment momentum + heavy-fragment momentum + momenta of all pre-fission neutrons, for every number of pre-fission neutrons.", "quantifier": "all incident energies, TKE, masses, pre-fission neutron energies and angles", "why_tests_cant": "identity over all reals and all multiplicities", "anchors": ["libcgmf/src/kinematics.cpp: boost_pfn"]}
{"id": "C38", "title": "Whole-event momentum balance seen through the API", "statement": "From the getters alone: the sum of lab momenta of all neutrons, pre-fission neutrons and post-emission fragments equals the incident neutron momentum, for every event.", "quantifier": "all events", "why_tests_cant": "composition over the whole event pipeline", "anchors": ["libcgmf/src/cgmfEvents.cpp: cgmfEvent::cgmfEvent", "libcgmf/src/kinematics.cpp", "libcgmf/src/specmc.cpp: recordEmittedParticlesFission"]}
{"id": "C39", "title": "Direction cosines are unit vectors", "statement": "For every reported particle with non-zero velocity, u^2+v^2+w^2 = 1, in the lab and cm frames, for neutrons, photons and pre-fission neutrons.", "quantifier": "all velocities", "why_tests_cant": "all real velocities and angles", "anchors": ["libcgmf/src/specmc.cpp: recordEmittedParticlesFission", "libcgmf/src/cgmfEvents.cpp", "libcgmf/src/kinematics.cpp: boost"]}
{"id": "C40", "title": "Kinetic energy is split so the fragments recoil back to back", "statement": "The light and heavy kinetic energies add up to TKE and correspond to equal and opposite momenta (K_L M_L = K_H M_H).", "quantifier": "all TKE and masses", "why_tests_cant": "identity over reals", "anchors": ["libcgmf/src/FissionFragments.cpp: sampleFissionFragments"]}
{"id": "C41", "title": "Photon Doppler shift is relativistically consistent", "statement": "The lab photon energy is gamma*(1 + beta.n)*E_cm with the fragment's velocity; it stays strictly positive and within the Doppler limits for any sub-luminal fragment. (The code's angle is not the angle to the fragment velocity when boosted: stated precisely, with the part that holds proved.)", "quantifier": "all fragment velocities and angles", "why_tests_cant": "identity/inequality over reals", "anchors": ["libcgmf/src/kinematics.cpp: boost"]}
{"id": "C42", "title": "Fission energy balance", "statement": "For every sampled pair with non-negative total excitation: TKE + U_light + U_heavy = M(compound) + E_inc + S_n - M(light) - M(heavy) for the fissioning nucleus at fission, for any sharing rule; and pairs with negative total excitation yield zero excitation and are not returned as events.", "quantifier": "all fragment pairs, TKE values and random streams", "why_tests_cant": "rejection loop over all random streams", "anchors": ["libcgmf/src/FissionFragments.cpp: computeFragmentInitialConditions, computeFragmentExcitationEnergy, generateInitialFissionFragmentHistories"]}
{"id": "C43", "title": "Energy sharing iteration terminates", "statement": "The fixed-point iteration sharing the excitation energy stops for every pair of level-density functions. (Refuted: its iteration limit does not leave the loop; the sum rule and the behaviour on termination are proved.)", "quantifier": "all level-density parameter functions", "why_tests_cant": "non-termination cannot be observed by a finite test", "anchors": ["libcgmf/src/FissionFragments.cpp: computeFragmentExcitationEnergy"]}
{"id": "C44", "title": "Mass yields are normalised and symmetric about half the compound mass", "statement": "The primary mass yield used for sampling is non-negative, symmetric under A -> A_c - A, and normalised over the sampled mass range.", "quantifier": "all systematics parameters, energies and pre-fission multiplicities", "why_tests_cant": "for all real parameters", "anchors": ["libcgmf/src/Yields.cpp: yieldA, setFissioningSystem", "libcgmf/src/FissionFragments.cpp: constructYields"]}
{"id": "C45", "title": "Charge distribution sums to the mass yield", "statement": "For each mass A with any charge probability, the sum over sampled charges of Y(Z,A) equals Y(A) and each entry is non-negative, with the odd-even staggering applied.", "quantifier": "all charge-distribution parameters", "why_tests_cant": "all parameters and masses", "anchors": ["libcgmf/src/FissionFragments.cpp: buildYZA, ComputeZDistribution"]}
{"id": "C46", "title": "Charge yields are normalised", "statement": "The charge yield Y(Z) sums to one. (Refuted: the running sum is reset for each Z; the partial theorem states the value obtained.)", "quantifier": "all yield tables", "why_tests_cant": "depends on the whole table", "anchors": ["libcgmf/src/FissionFragments.cpp: buildYZ"]}
{"id": "C47", "title": "Wahl charge model is complementary", "statement": "The most probable charges of complementary masses add up to Z of the fissioning nucleus and their widths are equal, so light and heavy sampling describe the same pair distribution; every parameter of the model depends on the excitation energy without jumps, and the limits of the charge lie dZ units beyond the integers nearest to the most probable charges of the lightest and heaviest mass.", "quantifier": "all fissioning systems and all masses", "why_tests_cant": "all real parameters and regions", "anchors": ["libcgmf/src/FissionFragments.cpp: ZDistribution 3422-4053"]}
{"id": "C48", "title": "Fragment sampling never returns a pair with zero yield", "statement": "The rejection samplers for mass and charge only return a mass with Y(A) at least the drawn height and a charge with Y(Z,A) at least the drawn height, so a mass or charge of zero yield is returned only if the drawn height is exactly zero; the mass is inside [Amin, Amax] and the charge within dZ of the central one.", "quantifier": "all yield tables and random streams", "why_tests_cant": "all random streams", "anchors": ["libcgmf/src/FissionFragments.cpp: sampleFissionFragments"]}
{"id": "C49", "title": "Average TKE is preserved by the rescaling", "statement": "After rescaling, the yield-weighted average of <TKE>(A) over all masses equals the prescribed average total kinetic energy for the energy, whenever the unscaled average is non-zero.", "quantifier": "all yields and TKE parametrisations", "why_tests_cant": "weighted sums of arbitrary length", "anchors": ["libcgmf/src/Yields.cpp: setRescaleTKE, averageTKE"]}
{"id": "C50", "title": "Multi-chance fission probabilities form a distribution", "statement": "For every incident energy inside the tabulated range the probabilities of emitting 0..n neutrons before fission are non-negative and sum to one, and the sampled number of pre-fission neutrons is always in 0..n with probability proportional to its entry.", "quantifier": "all tables, energies and random streams", "why_tests_cant": "interpolation and rejection sampling over reals", "anchors": ["libcgmf/src/FissionFragments.cpp: readMultichanceFissionData, getNumberPrefissionNeutrons"]}
{"id": "C51", "title": "Pre-fission neutrons leave a consistent fissioning nucleus", "statement": "After n pre-fission neutrons the nucleus that fissions has mass A_c - n, and its excitation is the initial excitation minus the separation and kinetic energies of these neutrons; the equivalent incident energy is excitation minus separation energy.", "quantifier": "all numbers of pre-fission neutrons and energies", "why_tests_cant": "induction over emitted neutrons", "anchors": ["libcgmf/src/FissionFragments.cpp: getPrefissionNeutronEnergy, constructYields"]}
{"id": "C52", "title": "Fragment angular distribution is a proper CDF and sampled directions are valid", "statement": "The tabulated cumulative angular distribution starts at 0, is non-decreasing and ends at 1 for every non-negative anisotropy, and the sampled polar angle lies in [0, pi].", "quantifier": "all anisotropy values and random numbers", "why_tests_cant": "all real anisotropies", "anchors": ["libcgmf/src/FissionFragments.cpp: computeFragmentAngularDistribution"]}
{"id": "C53", "title": "Tabulated temperature and level-density interpolation is safe and bounded", "statement": "For energies inside the table the interpolated value lies between the neighbouring tabulated values and reproduces them at the nodes; outside, the code's index is out of range (shown).", "quantifier": "all energies and tables", "why_tests_cant": "real-valued energies, table boundaries", "anchors": ["libcgmf/src/FissionFragments.cpp: getTemperature, getLDP, findEnergyIndex"]}
{"id": "C54", "title": "Initial fragment spin and parity are valid quantum numbers", "statement": "The sampled spin is integer for even A and half-integer for odd A, below 50, its discrete distribution is non-negative and sums to one, and the parity is +1 or -1.", "quantifier": "all fragments, temperatures and random streams", "why_tests_cant": "all random streams", "anchors": ["libcgmf/src/FissionFragments.cpp: getInitialSpin, computeFragmentInitialConditions"]}
{"id": "C55", "title": "Multiplicity distributions of the toolkit are normalised and consistent with the mean", "statement": "For every history the toolkit's P(nu) sums to one and its mean equals nubar, likewise for photons.", "quantifier": "all histories", "why_tests_cant": "arbitrary event lists", "anchors": ["tools/CGMFtk/histories.py: Pnu, Pnug, nubartot, nubarg"]}
{"id": "C56", "title": "Toolkit mass-dependent averages cover every mass", "statement": "nu-bar(A), weighted with the number of fragments per mass, reproduces total nu-bar. (Refuted for the largest mass, which is dropped; partial theorem with the exact deficit.)", "quantifier": "all histories", "why_tests_cant": "arbitrary event lists", "anchors": ["tools/CGMFtk/histories.py: _qA, nubarA"]}
{"id": "C57", "title": "Neutron-neutron angles use distinct pairs", "statement": "The neutron-neutron correlation lists each unordered pair of distinct neutrons of an event exactly once. (The code's behaviour characterised exactly; self pairs refuted/confirmed.)", "quantifier": "all histories", "why_tests_cant": "combinatorial over all multiplicities", "anchors": ["tools/CGMFtk/histories.py: nnangles"]}
{"id": "C58", "title": "Photon multiplicity versus time is monotone and reaches the total", "statement": "The toolkit's time-cut gamma multiplicity is non-decreasing in the time limit, bounded by the total and equals it once the limit exceeds the largest age.", "quantifier": "all histories and time limits", "why_tests_cant": "all real limits", "anchors": ["tools/CGMFtk/histories.py: gammaMultiplicity, nubarg(timeWindow)"]}
{"id": "C59", "title": "C interface is memory safe under every call sequence", "statement": "For every sequence of C calls (generate, getters, clean) no freed or null event is read or freed twice provided a getter follows a generate and nothing follows clean; without these provisos a concrete sequence misbehaves.", "quantifier": "all finite call sequences", "why_tests_cant": "all call histories", "anchors": ["libcgmf/src/cgmfEvents_capi.cpp"]}
{"id": "C60", "title": "Lifetimes of events in the C++ interface", "statement": "Sequences in which events are constructed and destroyed one after another never double-free or leak the shared nuclear arrays; overlapping lifetimes do (witness).", "quantifier": "all sequences of constructions/destructions", "why_tests_cant": "all histories", "anchors": ["libcgmf/src/cgmfEvents.cpp: cgmfEvent ctor/dtor", "libcgmf/src/terminate.cpp: cgmDeleteAllocated, cgmAllocateMemory"]}
{"id": "C61", "title": "Random generator reproducibility", "statement": "After setting a seed the generator's stream is a function of the seed only and library and caller share the stream semantics chosen when the generator is installed (a copy); constructing with a seed has no effect.", "quantifier": "all seeds and draw counts", "why_tests_cant": "all lengths of the stream", "anchors": ["libcgmf/include/rngcgm.h", "libcgmf/src/cgmfEvents.cpp: set_rng", "utils/cgmf/cgmf.cpp: main"]}
{"id": "C62", "title": "Yields mode refuses the same reactions as history mode", "statement": "Asking for fragment yields (negative number of events) refuses exactly the reactions that asking for histories refuses. (False of the code: the yields path skips the input gate.)", "quantifier": "all target identifiers and incident energies", "why_tests_cant": "all integers times all energies", "anchors": ["libcgmf/src/cgmfEvents.cpp: cgmfYields, checkInput"]}
{"id": "C63", "title": "Direction and age getters of non-fission events", "statement": "For an event produced by the single-nucleus interface the neutron and photon direction cosines and photon ages returned by the getters are values computed for that event. (False of the code: the arrays are allocated and never written.)", "quantifier": "all decay results", "why_tests_cant": "depends on uninitialised memory, not observable by a deterministic test", "anchors": ["libcgmf/src/cgmfEvents.cpp: cgm"]}
{"id": "C64", "title": "Every history file written by CGMF can be loaded by the toolkit", "statement": "Every file that CGMF writes for any list of events is accepted by the toolkit's history reader. (False of the code: files whose per-fragment particle lists are all of equal non-trivial shape, and empty files, are refused; the exact condition is proved.)", "quantifier": "all lists of events, all multiplicities", "why_tests_cant": "depends on the multiplicities of all events together", "anchors": ["tools/CGMFtk/histories.py: _readHistoryFile, Histories.__init__", "utils/cgmf/cgmf.cpp: printEventToHistoryFile"]}
{"id": "C65", "title": "Kinetic energy after emission belongs to the nucleus after emission", "statement": "The post-emission kinetic energy getter of a fragment equals the square of the reported post-emission momentum over twice the mass of the nucleus that remains after all its neutrons. (False of the code when neutrons are emitted: it divides by the mass before emission; what it computes is proved exactly.)", "quantifier": "all fragments, momenta and emission sequences", "why_tests_cant": "identity over all reals and all sequences", "anchors": ["libcgmf/src/specmc.cpp: recordEmittedParticlesFission"]}
{"id": "C66", "title": "Fragment momenta carry the total kinetic energy", "statement": "The laboratory kinetic energies of the two fragment momenta add up to the sampled TKE; each equals the reported fragment kinetic energy when the nucleus is at rest. (Exact deviation proved for a moving nucleus; with a pre-equilibrium neutron the compound mass used is one neutron too heavy, with a witness.)", "quantifier": "all incident energies, TKE, masses, pre-fission neutrons and angles", "why_tests_cant": "identity over all reals and multiplicities", "anchors": ["libcgmf/src/kinematics.cpp: boost_pfn", "libcgmf/src/FissionFragments.cpp: sampleFissionFragments"]}
{"id": "C67", "title": "Looking up the levels of a nucleus", "statement": "getDiscreteLevels returns, for a nucleus in the level file, the levels of its first entry, and for a nucleus not in the file a single ground state with default spin and parity. (Second half false of the code: the search reads past the end of the ZAID table for every absent nucleus.)", "quantifier": "all level files and nuclei", "why_tests_cant": "depends on which nuclei the file lacks; an out-of-bounds read usually goes unnoticed", "anchors": ["libcgmf/src/ripl2levels.cpp: getDiscreteLevels"]}
{"id": "C68", "title": "Time histogram of photons counts each photon once", "statement": "gammaMultiplicity counts every photon above the threshold, of the chosen fragments and with an age inside the time window, in exactly one bin.", "quantifier": "all histories, thresholds, fragment choices and increasing time grids", "why_tests_cant": "all event lists and grids", "anchors": ["tools/CGMFtk/histories.py: gammaMultiplicity"]}
{"id": "C69", "title": "The prompt neutron spectrum of the toolkit is normalised", "statement": "The spectrum returned by pfns is non-negative and integrates to one over its grid, and is built from all neutrons, pre-fission ones included.", "quantifier": "all histories and grids with a neutron inside", "why_tests_cant": "all event lists and grids", "anchors": ["tools/CGMFtk/histories.py: pfns"]}
{"id": "C70", "title": "Isomeric ratios are probabilities", "statement": "isomericRatio is between 0 and 1, the two spin orders are complementary, and an absent nucleus raises an error rather than giving a number.", "quantifier": "all histories, nuclei, spins and threshold times", "why_tests_cant": "all event lists", "anchors": ["tools/CGMFtk/histories.py: isomericRatio"]}
{"id": "C71", "title": "Neutron transmission coefficients are probabilities", "statement": "Every coefficient omCalc stores lies between 0 and 1 and equals the matching formula of the inner wave function's logarithmic derivative with penetrability and shift of the outer wave, cut off at zero; it is positive exactly when flux enters the nucleus; it does not depend on the amplitude or admixture the integration starts from.", "quantifier": "all potentials, meshes, energies, partial waves and starting values", "why_tests_cant": "identity over all complex wave functions; a sample of energies cannot establish it", "anchors": ["libcgmf/src/omcalc.cpp: omCalc", "libcgmf/src/smatrix.cpp: omSmatrix", "libcgmf/src/intwave.cpp: omInternalFunction"]}
{"id": "C72", "title": "The optical potential only absorbs", "statement": "On every mesh the flux of the inner wave function changes from point to point by exactly the absorption there, so an absorptive potential never creates flux, and with a real potential every transmission coefficient is exactly zero. The integration completes whenever the mesh fits and no Numerov factor vanishes.", "quantifier": "all potentials, meshes of any length, angular momenta and energies", "why_tests_cant": "induction over the mesh points", "anchors": ["libcgmf/src/intwave.cpp: omInternalFunction", "libcgmf/src/omcalc.cpp: omCalc"]}
{"id": "C73", "title": "Outer wave functions have unit Wronskian and are always found", "statement": "omExternalFunction returns regular and irregular functions that satisfy the three-term recurrence and have Wronskian 1 at every order, within its arrays; the order reported is the first one not below the order asked for at which the penetrability falls below the criterion (or the array bound); it never ends the process; for neutrons it returns at every energy at which the irregular solution grows beyond the turning point, in particular whenever the matching radius is at most one wave number inverse.", "quantifier": "all matching radii, Coulomb parameters, starting values and orders", "why_tests_cant": "induction over orders in both directions", "anchors": ["libcgmf/src/extwave.cpp: omExternalFunction"]}
{"id": "C74", "title": "The stored reaction cross section is the cross section", "statement": "The number omCalc returns as reaction cross section is pi/k^2 times the sum over partial waves of (l+1) T+ + l T-, each wave is stored under its own order, the returned order covers the computed waves, and a sum cut short ends on a negligible wave. (False of the code for the factor pi/k^2, which is commented out; the rest is proved.)", "quantifier": "all potentials and energies", "why_tests_cant": "all inputs; the sum has data-dependent length", "anchors": ["libcgmf/src/omcalc.cpp: omCalc", "libcgmf/src/stattrans.cpp: statStoreContinuumTransmission"]}
{"id": "C75", "title": "The radial mesh fits its arrays and centres the matching point", "statement": "omPotentialForm chooses a matching radius at most one spacing beyond the requested one, at the centre of the seven-point stencil (exact for polynomials of degree six), and writes every table within bounds or stops the process. (False of the code for a mesh of exactly MAX_POINTS steps, which writes one entry too many.)", "quantifier": "all matching radii and spacings", "why_tests_cant": "boundary case of a size guard; out-of-bounds writes usually go unnoticed", "anchors": ["libcgmf/src/omsetform.cpp: omPotentialForm, omPotentialFixedLength", "libcgmf/src/smatrix.cpp: lagrange"]}
{"id": "C76", "title": "Depth switches leave the other terms of the potential alone", "statement": "At every radius the central potential is absorptive, and equals the sum of the terms named by the library's form number with negative depths replaced by zero. (False of the code for the real surface term when the real volume depth is not positive: the mask clears the wrong bit.)", "quantifier": "all form numbers, depths, geometries and radii", "why_tests_cant": "all bit patterns and reals together", "anchors": ["libcgmf/src/omsetparm.cpp: omSetOmp", "libcgmf/src/omsetform.cpp: omPotentialRadialMean"]}
{"id": "C77", "title": "Exciton occupation probabilities solve the master equation", "statement": "preqPOccupation converges for every set of rates (it never prints that it did not), and the returned probabilities are the unique solution of the two-component master equation to one part in a million per created pair, never negative, with probability one for the initial configuration.", "quantifier": "all tables of rates and lifetimes", "why_tests_cant": "a fixed-point iteration over all real rates; convergence is a statement about every input", "anchors": ["libcgmf/src/excipop.cpp: preqPOccupation", "libcgmf/src/exciton.cpp: preqExcitonModel"]}
{"id": "C78", "title": "Exciton state densities and transition rates", "statement": "Up to the well depth every state density is non-negative and vanishes below its Pauli energy, no configuration of the model reads outside the table of factorials, all creation and conversion rates and lifetimes are non-negative, and each rate is the squared matrix element times the Simpson integral of the accessible states. (The last is false of the code: the end points enter without the matrix element.)", "quantifier": "all nuclei, excitation energies up to 38 MeV, configurations and matrix elements", "why_tests_cant": "all reals; integrals over empty energy ranges have a negative step", "anchors": ["libcgmf/src/exciparm.cpp: preqStateDensity, preqFiniteWell, preqPairingCorrection", "libcgmf/src/excilambda.cpp: preqLambdaPlusZ, preqLambdaPlusN, preqLambdaZeroZ, preqLambdaZeroN"]}
{"id": "C79", "title": "Pre-fission neutron spectra are probability distributions", "statement": "The pre-equilibrium and the evaporation spectrum handed to the sampler are non-negative and add up to one, in proportion to the emission rates, and bins not above threshold are empty; a nucleus that cannot emit gives an empty spectrum. (Last part false of the evaporation spectrum, which becomes not-a-number in every bin.)", "quantifier": "all rates, grids, cross sections and level densities", "why_tests_cant": "all lists of bins", "anchors": ["libcgmf/src/excinterface.cpp: excitonInterface", "libcgmf/src/evapinterface.cpp: evapInterface", "libcgmf/src/exciton.cpp: preqEmissionRate"]}
{"id": "C80", "title": "Constant temperature and Fermi gas level densities join smoothly", "statement": "Whenever ldTGconnect finds a connection the temperature is positive, the matching energy lies in the search interval, the constant-temperature density integrates to exactly the number of discrete levels up to the highest one, the inverse temperature is the logarithmic slope of the Fermi gas there, and the density returned by ldLevelDensity is continuous at the matching energy to 1e-6/T in the logarithm; ldTextrapolate joins the two to 1e-6. (Continuity holds when the matching energy is not below the highest discrete level and fails below it, where ldLevelDensity uses another density parameter than the connection did.)", "quantifier": "all nuclei, level schemes and parameters", "why_tests_cant": "an integral and a derivative, for all real parameters and every path of the bisection", "anchors": ["libcgmf/src/levden.cpp: ldTGconnect, ldTextrapolate, ldLevelDensity"]}
{"id": "C81", "title": "Stored level densities are positive, parity symmetric and belong to the nucleus", "statement": "Every total density is positive, every entry of the density array is non-negative and equal for both parities, a spin weight is zero or at least the cut, and the array depends on the nucleus alone and not on nuclei treated before. (Last part false of the code without a matching energy: the spin cut-off of an earlier nucleus is used, and scaling it accumulates.)", "quantifier": "all nuclei, energy grids, spins and histories of earlier nuclei", "why_tests_cant": "depends on which nucleus used the slot before", "anchors": ["libcgmf/src/levden.cpp: ldLevelDensity, ldSpinDistribution, ldParityDistribution", "libcgmf/src/setup.cpp: statSetupLevelDensity", "libcgmf/src/popinit.cpp: statPopinitLevden"]}
{"id": "C82", "title": "Level density parameters are the nucleus's own and temperatures are positive", "statement": "A nucleus absent from the parameter file stops the process; every other keeps its pairing energy and shell correction through the set-up, and its temperature is positive whether it comes from the connection, from the systematics or from the file.", "quantifier": "all parameter rows, level schemes and earlier contents", "why_tests_cant": "all rows and all outcomes of two nested searches", "anchors": ["libcgmf/src/setup.cpp: statSetupLevelDensityParameter", "libcgmf/src/kcksyst.cpp: getkcksystdat, kckTemperature"]}
{"id": "C83", "title": "Gamma-ray transmission coefficients follow the strength functions", "statement": "For every transition downwards in energy the E1 coefficient is 2 pi times the global factor times E^3 times the sum of Kopecky-Uhl strengths of the E1 resonances at the final temperature, the M1 and E2 coefficients use Brink-Axel strengths, and all are positive when a resonance of the kind exists. The resonance parameters set up for any nucleus are physical, fit the array of six and contain one M1 and one E2 entry; the M1 strength at 7 MeV is 17.01 A^-0.878 times the E1 strength. A transition of energy zero has no defined E2 coefficient.", "quantifier": "all transition energies, nuclei below mass 509, deformations below 1.07, resonance lists and temperatures", "why_tests_cant": "identity over all reals; a wrong factor or index shows only as a small bias of spectra", "anchors": ["libcgmf/src/gtrans.cpp: gdrGammaTransmission, gdrStandardLorentzian, gdrGeneralizedLorentzian, gdrM1norm", "libcgmf/src/gdr.cpp", "libcgmf/src/setup.cpp: statSetupGdrParameter"]}
{"id": "C84", "title": "A decay step conserves probability with the computed coefficients", "statement": "With gamma-ray coefficients, level densities and neutron transmission coefficients computed by the library's own routines and nothing assumed about them, every coefficient a decay step from a continuum state reads is defined, gamma-ray ones are positive, and the populations of the daughter states are non-negative and add up to one.", "quantifier": "all nuclei, level schemes, excitation energies, spins, potentials and density parameters", "why_tests_cant": "composition of five routines for all inputs", "anchors": ["libcgmf/src/specmain.cpp: specCompoundDecay", "libcgmf/src/stattrans.cpp", "libcgmf/src/gampop.cpp: specTransitionGamma", "libcgmf/src/setup.cpp: statSetupEnergyBin, statSetupGdrParameter, statSetupLevelDensity", "libcgmf/src/omcalc.cpp: omCalc"]}
{"id": "C85", "title": "Fragments, spins and neutron numbers are sampled from their distributions", "statement": "With independent uniform random numbers the samplers return each mass and charge with probability proportional to the product of the yields, each pair of fragments with the light fragment at or below half the mass, each spin with probability proportional to its weight, each number of pre-fission neutrons and each spectrum bin with probability proportional to its entry; the loops end with probability one.", "quantifier": "all tables of yields, weights and spectra that are non-negative and not all zero, all masses, charges and spins", "why_tests_cant": "the law concerns all infinite sequences of random numbers; tests estimate frequencies from finitely many", "anchors": ["libcgmf/src/FissionFragments.cpp:1345-1385", "libcgmf/src/FissionFragments.cpp:5327-5337", "libcgmf/src/FissionFragments.cpp:5370-5384"]}
{"id": "C86", "title": "Discrete cascades follow the branching ratios and half-lives", "statement": "With independent uniform random numbers the cascade from a discrete level takes a given path of photons and conversion electrons down to the ground state with probability equal to the product of branching ratios and photon or electron fractions along it, and the time spent in a level exceeds x with probability 2^(-x/T) for half-life T.", "quantifier": "all level schemes with downward branches adding up to one, all starting levels, all paths, all half-lives", "why_tests_cant": "there are exponentially many paths and the law concerns infinite sequences of random numbers", "anchors": ["libcgmf/src/specmc.cpp:525-592"]}
{"id": "C87", "title": "A decay step follows the Hauser-Feshbach formula", "statement": "With independent uniform random numbers the next state of a nucleus in the continuum is each state of the same nucleus or of the daughter with probability equal to its transmission over the total transmission, and a neutron is emitted with probability neutron width over total width.", "quantifier": "all nuclei, meshes, transmission coefficients, level densities, spins and parities with a positive total width", "why_tests_cant": "the probabilities of all states of every mesh are determined exactly, not estimated", "anchors": ["libcgmf/src/specmc.cpp:336-519", "libcgmf/src/specmain.cpp:267-310", "libcgmf/src/gampop.cpp:32-134", "libcgmf/src/parpop.cpp:36-159"]}
{"id": "C88", "title": "Mean energies from a history are the average energies per event", "statement": "Histories.meanNeutronElab() times nubartot() is the average over events of the energy of all neutrons, pre-fission ones included; meanGammaElab() times nubargtot() is the same for photons; the mean over fragments is the weighted mean of the light and heavy ones; every mean lies between the smallest and largest energy.", "quantifier": "all histories with at least one neutron (photon)", "why_tests_cant": "an identity between two independent methods for every history", "anchors": ["tools/CGMFtk/histories.py:738-814"]}
{"id": "C89", "title": "Averages against total kinetic energy cover all events", "statement": "Every row of nubarTKE() and nubargTKE() is the average over the events with TKE in its bin, and UTKE() and spinTKE() give the fragment averages. (False of the code: the last row is always zero, the events of largest TKE are in no row, and UTKE and spinTKE always raise.)", "quantifier": "all histories", "why_tests_cant": "depends on the relation of all event energies to the bin edges", "anchors": ["tools/CGMFtk/histories.py:957-1013"]}
{"id": "C90", "title": "The photon spectrum integrates to the number of photons asked for", "statement": "pfgs is non-negative and its integral is the average number of photons above the threshold and in the time window per event. (False of the code whenever a photon is cut: it is always scaled to the number of all photons.)", "quantifier": "all histories, thresholds, time windows and grids", "why_tests_cant": "integral over all grids and all histories", "anchors": ["tools/CGMFtk/histories.py:1046-1080"]}
{"id": "C91", "title": "Angles computed from a history belong to the right particles", "statement": "nangles returns for each neutron above threshold its own cosine once, in the list of its fragment; FFangles returns numbers in [-1,1], opposite for opposite momenta; nFangles returns for each neutron the scalar product with the light fragment of its own event, at most the length of the direction. Without any neutron from one kind of fragment nangles raises.", "quantifier": "all histories, thresholds and options", "why_tests_cant": "pairing of flattened lists for every pattern of multiplicities", "anchors": ["tools/CGMFtk/histories.py:1086-1294"]}
{"id": "C92", "title": "Photon gates select exactly the matching fragments", "statement": "gammaSpec returns charge and mass of exactly the fragments that have a photon within the resolution of every requested energy, refuses negative or mismatched arguments, and raises for resolutions in a Python list.", "quantifier": "all histories, lists of energies and resolutions", "why_tests_cant": "all combinations of gates and photons", "anchors": ["tools/CGMFtk/histories.py:1340-1395"]}
{"id": "C93", "title": "Tabulated anisotropies are used at the incident energy", "statement": "At every incident energy on the grid of the anisotropy file the angular distribution of the fragments uses the tabulated coefficient of its compound nucleus, and an isotropic one below or above the grid. (False of the code: only at multiples of 0.5 MeV does the comparison of a float with a double succeed.)", "quantifier": "all incident energies and all tables", "why_tests_cant": "energies are compared for equality after rounding in two precisions; tests try a few energies and see a plausible distribution in either case", "anchors": ["libcgmf/src/FissionFragments.cpp: computeFragmentAngularDistribution, readAnisotropy"]}
{"id": "C94", "title": "Data files are read back completely", "statement": "After readMasses, readDeformations, readTemperatures and readLDP every nucleus listed in a well-formed file has exactly the values of its row and every other nucleus the documented default. (False of the code for the first row of the level density file and for nuclei of mass excess zero.)", "quantifier": "all well-formed files: any number of comments and rows, any spacing", "why_tests_cant": "the readers keep position, eof and fail state of a stream; a row lost or merged is used silently as a default, and tests see one file", "anchors": ["libcgmf/src/FissionFragments.cpp: readMasses, getMassExcess, readDeformations, getDeformation, readTemperatures, readLDP"]}
{"id": "C95", "title": "A missing or damaged data file stops the program", "statement": "Without a data file, or with one that holds a word in place of a number, the program stops with a message; a file in the current directory takes precedence over the data directory. (False of the code for the angular parameters and the anisotropy file when missing, and for a damaged level density file: it then runs for ever or uses uninitialised variables.)", "quantifier": "all file contents, both directories", "why_tests_cant": "non-termination cannot be observed by a test; tests run with complete data", "anchors": ["libcgmf/src/FissionFragments.cpp: readMasses, readDeformations, readTemperatures, readLDP, readSpinScaling, readPreeqData, readPreEqAngularDistributionParameters, readAnisotropy"]}
{"id": "C96", "title": "The spin strength is the tabulated line", "statement": "Without a value from the user the spin strength is alpha_0 + alpha_slope * E of the first row for the nucleus, and the documented default for nuclei without a row; a value from the user overrides it; a file with too many rows stops the program. (False of the code for too many rows: the table is written out of bounds before the test.)", "quantifier": "all files, nuclei, energies", "why_tests_cant": "all files and energies; an out-of-bounds write goes unnoticed", "anchors": ["libcgmf/src/FissionFragments.cpp: readSpinScaling, getSpinScalingCoefficients, setSpinStrength"]}
{"id": "C97", "title": "The pre-equilibrium fraction follows the file", "statement": "For every target listed the fraction is the documented function of the incident energy with the parameters of its row, for any number of targets, and zero for other targets. (False of the code beyond nine rows: only the first digit of the count is read.)", "quantifier": "all files, targets and energies", "why_tests_cant": "the shipped file has seven rows; a longer one is truncated silently", "anchors": ["libcgmf/src/FissionFragments.cpp: readPreeqData, preeq_fraction"]}
{"id": "C98", "title": "The command line sets exactly what it says", "statement": "Each option given as -c value or -cvalue, anywhere among operands and unknown flags, sets its own variable to the last value given and leaves the others at their defaults; order does not matter; with a positive count, a supported reaction, a valid window, a data directory and a writable file each rank writes the events of its own seeds; without -i or -e no event is generated; without -n the documented default is used. (False of the code for the last: the count is then 0 and the summary dereferences a null pointer.)", "quantifier": "all command lines, ranks and environments", "why_tests_cant": "all orders and spellings of the options; the crash appears only without the option every test gives", "anchors": ["utils/cgmf/cgmf.cpp:36-42", "utils/cgmf/cgmf.cpp:60-111", "utils/cgmf/cgmf.cpp:374-437"]}
{"id": "C99", "title": "Kinetic energies are normally distributed", "statement": "For independent uniform random numbers sampleGaussian ends with probability one and returns a number with the standard normal distribution, so that sampleTKE(A) has the normal distribution with mean rescale * avTKE[Ah] and width sTKE[Ah], Ah the heavier mass.", "quantifier": "all measurable sets of values, all tables and masses", "why_tests_cant": "a distribution is a statement about all outcomes of an unbounded rejection loop; a finite sample can only fail to reject it", "anchors": ["libcgmf/src/Yields.cpp: sampleGaussian, sampleTKE", "libcgmf/src/setup.cpp: normaldist"]}
{"id": "C100", "title": "Emission is isotropic", "statement": "For independent uniform random numbers the centre-of-mass directions of all neutrons and photons of a fragment are independent and each is uniform over the sphere: the probability of a set of directions is its share of the solid angle, which no rotation changes. The same holds for the fragment direction without an anisotropy coefficient.", "quantifier": "all measurable sets of directions, numbers of particles, energies and momenta", "why_tests_cant": "uniformity over the sphere is a statement about every set of directions and every rotation; a common mistake (uniform polar angle) passes all tests on lengths and conservation", "anchors": ["libcgmf/src/kinematics.cpp: neutron_emission_boost, boost, boost_pfn"]}
{"id": "C101", "title": "The neutron optical potential is well formed for every fragment", "statement": "For every nucleus up to mass 300 and every energy from 1e-20 to 100 MeV the depths used for a neutron have the right signs and no term is switched off, the mesh fits its tables, the process does not stop, and from the matching radius on every term is below a millionth of the energy. For fragments of mass 60 to 260 and energies up to 30 MeV the potential absorbs at every mesh point, spin-orbit term included (for j = l + 1/2 up to l = 20), so the wave function can always be integrated and has no outward flux. Below 1e-40 MeV the process stops.", "quantifier": "all masses, charges, energies, radii and partial waves in these ranges", "why_tests_cant": "real-valued bounds over continuous ranges of mass, energy and radius", "anchors": ["libcgmf/src/builtin.cpp: koning_delaroche, omp_library", "libcgmf/src/omsetparm.cpp: omSetOmp", "libcgmf/src/omsetform.cpp: omPotentialForm, omPotentialFixedLength, omThomas", "libcgmf/src/intwave.cpp: omInternalFunction"]}
{"id": "C102", "title": "The single-nucleus interface returns the emitted particles", "statement": "For every decay of an excited nucleus cgm() returns one photon energy per emitted photon and one neutron energy per emitted neutron, each within half an energy bin, and recording the decay stays inside its arrays. (False of the code: particles in the same bin are returned once, particles below half a bin are lost, conversion electrons are returned as photons, more than 30 lines are dropped, and more than 50 photons overrun the record.)", "quantifier": "all decay histories with any number of particles and any energies", "why_tests_cant": "the losses depend on coincidences of energies in one decay; totals over many decays look plausible", "anchors": ["libcgmf/src/cgmfEvents_capi.cpp: cgm", "libcgmf/src/cgmfEvents.cpp: cgmEvent", "libcgmf/src/specmc.cpp: specMCMain, mcStoreHistory, mcNormalizeSpectrum, recordEmittedParticles", "libcgmf/src/output.cpp: cgmGetSpectra"]}
{"id": "C103", "title": "The initial spin of the single-nucleus interface follows the level density", "statement": "With independent uniform random numbers the decay starts in each state of spin and parity with probability equal to its initial population; with populations from the level density both parities are equally probable and the spins are in the ratio of the spin distribution up to the cut-off.", "quantifier": "all normalised populations, spins and parities; all spin distributions that fall below the cut-off", "why_tests_cant": "a law over all infinite sequences of random numbers", "anchors": ["libcgmf/src/specmc.cpp: mcSampleStart", "libcgmf/src/popinit.cpp: statPopinitLevden"]}
{"id": "C104", "title": "Yield parameters come from the nucleus's own row", "statement": "After construction of Yields each of the first four fission chances has exactly the mass-yield and kinetic-energy parameters of the last row of yamodel.dat and tkemodel.dat for its nucleus (the first row with negative sign for spontaneous fission), a chance without row is marked unsupported, and a file that is missing or has no row for the nucleus stops the program. (False of the code for a last row without newline, for a comment longer than the buffer, which makes the reader run for ever, and for a nucleus without row of kinetic energies, which is not reported.)", "quantifier": "all files of comments, rows and ignored lines, all nuclei", "why_tests_cant": "all files; non-termination cannot be observed by a test and the shipped files avoid it", "anchors": ["libcgmf/src/Yields.cpp: setYieldParameters, LoadYAParams, setTKEParameters, LoadTKEParams"]}
{"id": "C105", "title": "The average kinetic energy follows the row of the nucleus", "statement": "For every incident energy the average total kinetic energy is the two-slope function of the row of the fissioning nucleus, a continuous function of the energy that is largest at the tabulated point when the slopes have opposite sign, with the mass dependence of the same row; a nucleus without row uses the systematics with slope -1/4 and the mass dependence of the compound nucleus. (False of the code when the compound nucleus has no row either: uninitialised coefficients are used.)", "quantifier": "all rows, energies and numbers of pre-fission neutrons", "why_tests_cant": "continuity and a maximum over all real energies", "anchors": ["libcgmf/src/Yields.cpp: setFissioningSystem, averageTKE, ViolaSyst"]}
{"id": "C106", "title": "Levels of every nucleus are read back from the level file", "statement": "After readDiscreteLevelData a request for a nucleus of a well-formed level file returns one level for each level line of its first entry, made from the columns of that line and of the transition lines after it, wherever in the file the entry stands; without the file, or with one that ends before the announced number of levels, the program stops. (False of the code for a file cut inside a line: the last line is used for all the levels still announced.)", "quantifier": "all files of comments and nuclei, any number of levels and transitions, both directories", "why_tests_cant": "all files; a reader that is off by one line gives plausible levels of another nucleus, and a truncated file is read without a message", "anchors": ["libcgmf/src/ripl2levels.cpp: readDiscreteLevelData, getDiscreteLevels"]}
{"id": "C107", "title": "Level density parameters and temperature ratios are read back", "statement": "After readkcksystdat every nucleus has the parameters of its last line, temperature and shift from the columns selected by its matching energy, and nuclei without line have none; the temperature ratio used for a target and a heavy mass is the one of the first row for the target in rta.dat, one outside the masses of the row and for other targets. (False of the code for other targets when the file has fewer than ten rows, for more than ten rows, and for a target that is listed only with spontaneous fission.)", "quantifier": "all files of comments, blank lines and rows, all targets and masses", "why_tests_cant": "the shipped file has exactly ten rows; with any other number memory that was never set is read, or memory past the end written", "anchors": ["libcgmf/src/kcksyst.cpp: readkcksystdat", "libcgmf/src/FissionFragments.cpp: readRTA, computeFragmentExcitationEnergy"]}
{"id": "C108", "title": "Initial spins follow the spin parameter and grow with the spin strength", "statement": "For a nucleus inside the tables and an energy inside the grid the spin parameter is defined, positive and equal to the rigid-body moment of inertia (deformation from the table, 0.2 if missing) times the spin strength times the temperature over (hbar c)^2, whatever was asked before; with independent uniform random numbers the spins and parities of the two fragments of a pair are independent, each spin distributed with its own parameter and each parity with probability 1/2; a larger spin strength makes every lower bound on the spin strictly more probable.", "quantifier": "all nuclei, energies, tables, histories of requests, spin strengths, spins and parities", "why_tests_cant": "laws over infinite sequences of random numbers, an order between distributions for all parameters, and tables of the process that are written by earlier requests", "anchors": ["libcgmf/src/FissionFragments.cpp: spinParameter2, getDeformation, getTemperature, getInitialSpin, computeFragmentInitialConditions"]}
{"id": "C109", "title": "The initial conditions of a pair have the intended joint law", "statement": "For one pair of fragments with temperature-ratio sharing, the total kinetic energy returned is normal with the tabulated mean and width conditioned on leaving a positive excitation energy; given the kinetic energy the spins and parities of the two fragments are independent with the distributions of the spin parameters at the shared energies; drawing the kinetic energy again does not change the probability of the pair; and a pair is returned with probability one", "quantifier": "all pairs, tables, kinetic energies and numbers of repetitions, independent uniform random numbers", "why_tests_cant": "joint law of a rejection loop over continuous draws, no sample settles it", "anchors": ["libcgmf/src/FissionFragments.cpp:1386-1396", "libcgmf/src/FissionFragments.cpp:1444-1490"]}
{"id": "C110", "title": "Neutron and photon spectra of a decay step", "statement": "With independent uniform random numbers one step of the decay of a nucleus in the continuum ends with probability one; the probability that it emits a neutron, or a photon, with an energy in any given set is the sum over the final states of their transmission times the chance of that energy, uniform within the final bin, over the total width; a photon that would end less than the cut above the highest level goes instead to a level, each level allowed for a dipole transition with the same probability.", "quantifier": "all nuclei, meshes, transmission coefficients, level densities, spins, parities and measurable sets of energies, with a positive total width", "why_tests_cant": "the law of a continuous variable over all infinite sequences of random numbers; a bias inside a bin or between the allowed levels is invisible in a total", "anchors": ["libcgmf/src/specmc.cpp:336-519", "libcgmf/src/specmain.cpp:267-310"]}
{"id": "C111", "title": "Multi-chance fission probabilities belong to the target", "statement": "For every well-formed multichancefission.dat the probabilities of the numbers of pre-fission neutrons and the barriers are those of the first block of the target, wherever it stands, interpolated at the incident energy and normalised; a target that is not listed, or a missing file, stops the program. (False of the code for a comment that does not fit the buffer, which makes the reader run for ever, and for a file that ends inside the block, whose missing numbers are uninitialised memory.)", "quantifier": "all files of comments, other lines and blocks of any size, all targets and energies", "why_tests_cant": "all files; a reader that is off by one number gives plausible probabilities of another nucleus, and non-termination cannot be observed", "anchors": ["libcgmf/src/FissionFragments.cpp: readMultichanceFissionData"]}
{"id": "C112", "title": "Pre-equilibrium neutrons follow the fitted angular distribution", "statement": "The cosine of a pre-equilibrium neutron exists for every random number, lies in [-1,1), and is below a tabulated cosine with the probability that the fitted density p0 sinh(cos)+p1 gives; with p0>=0 forward is at least as probable as backward, and with p0=0 the cosine is uniform. (The law is false of the code where the fit is negative in part of the range, as with the shipped coefficients near the largest residual excitation, and where both parameters vanish.)", "quantifier": "all parameters, numbers of rows and random numbers", "why_tests_cant": "a law over all random numbers; the shipped fit is negative only in a corner of energies, and every sampled cosine looks legal", "anchors": ["libcgmf/src/FissionFragments.cpp:5385-5433", "libcgmf/src/kinematics.cpp:264-279"]}
{"id": "C113", "title": "Energy and multiplicity correlations of a whole continuum decay", "statement": "With independent uniform random numbers the probability that a fragment emits any given sequence of neutrons and photons in the continuum, each with its energy in a given set, and then reaches a level of a given kind, is the iterated average of the laws of the single steps, each step starting at the energy, spin and parity the previous one reached; the number of neutrons has the distribution obtained by adding these values over all sequences.", "quantifier": "all chains of nuclei without dead ends, transmission coefficients, level densities, starting states, sequences of particles of any length below the limit of the history, measurable sets of energies", "why_tests_cant": "the joint law of an unbounded number of continuous variables; memory of an earlier step that a later one should not have (array left filled, stale grid, wrong index) is invisible in single-step tests", "anchors": ["libcgmf/src/specmc.cpp:328-519", "libcgmf/src/specmain.cpp:267-310"]}
{"id": "C114", "title": "Continuum decay and discrete cascade combine independently", "statement": "With independent uniform random numbers the decay of a fragment from given energy, spin and parity emits a given sequence of particles in the continuum and then takes a given path of photons and conversion electrons down to the ground state of a nucleus with probability equal to the probability of the continuum sequence ending on the first level of the path times the product of branching ratios along it.", "quantifier": "all chains of nuclei without dead ends, starting states in the continuum, sequences, energy sets and paths", "why_tests_cant": "a joint law over infinite sequences of random numbers for exponentially many paths", "anchors": ["libcgmf/src/specmc.cpp:113-197", "libcgmf/src/specmc.cpp:328-592"]}
{"id": "C115", "title": "Energies of pre-fission neutrons have the intended joint law", "statement": "With independent uniform random numbers the number of neutrons emitted before fission has the multi-chance probabilities, the first one is a pre-equilibrium neutron with the pre-equilibrium fraction independently of the number, and given both the energies follow bin by bin the spectra of the successive nuclei over the bins that leave the fissioning nucleus above its barrier, evenly within a bin, the fissioning nucleus keeping the rest; with probability one there is one positive energy per neutron. (False of the code less than one bin above the barrier: the energy of the first neutron is then negative at least half of the time.)", "quantifier": "all chains of nuclei, barriers, spectra, numbers of neutrons, measurable sets of energies and fractions", "why_tests_cant": "a joint law over infinite sequences of random numbers; a bin left out at the end of a spectrum or a stale spectrum does not show in averages", "anchors": ["libcgmf/src/FissionFragments.cpp:2240-2289", "libcgmf/src/FissionFragments.cpp:5327-5469"]}
{"id": "C116", "title": "The decay of a fragment does not depend on what was decayed before", "statement": "Decaying any list of fragments one after the other in one program gives, for the same random numbers, exactly the particles and records that decaying each of them in a program of its own would give: entries of earlier histories, their time stamps, the spin ranges and the energies left in the global arrays never show.", "quantifier": "all lists of fragments of any length, all earlier contents of the global arrays, all random numbers, including runs that stop or are undefined", "why_tests_cant": "a dependence on earlier fragments appears only for particular sequences, and every single event looks legal", "anchors": ["libcgmf/src/specmc.cpp:113-197", "libcgmf/src/specmc.cpp:328-592", "libcgmf/src/specmc.cpp:902-955", "libcgmf/src/setup.cpp:48-97"]}
{"id": "C117", "title": "The decays of an event are independent", "statement": "With independent uniform random numbers the probability that any number of fragments decayed one after the other in one program emit given particles (sequences in the continuum with energies in given sets, then given paths through levels) is the product of the probabilities of the single decays, whether a fragment starts in the continuum or on a level.", "quantifier": "all lists of fragments of any length, all sequences, paths and measurable sets of energies, all contents of the arrays at the start", "why_tests_cant": "a correlation between fragments caused by shared random numbers or shared arrays shows neither in single events nor in averages over one fragment", "anchors": ["libcgmf/src/specmc.cpp:113-197", "libcgmf/src/specmc.cpp:328-592", "libcgmf/src/setup.cpp:48-97"]}
{"id": "C118", "title": "The fission modes have the documented weights, means and widths", "statement": "At every energy the mass distribution is made of the five Gaussians documented in yamodel.dat: the asymmetric weights lie between 0 and 1, the weights add up to 2 with a non-negative symmetric weight, means and widths are the lines of the row, and a compound nucleus without row uses the one of the initial nucleus with the heavy peaks moved by the mass difference and the light peaks kept. (False of the code for the symmetric width, which grows with the slope of the first peak, and of the shipped rows for the symmetric weight at thermal energies on U-238 and Np-237.)", "quantifier": "all rows, compound nuclei and energies; all shipped rows at all energies up to 20 MeV", "why_tests_cant": "real-valued weights over a continuous range of energies; a weight of -1e-6 or a width of another mode gives plausible yields", "anchors": ["libcgmf/src/Yields.cpp: LoadYAParams, setFissioningSystem", "data/yamodel.dat"]}
{"id": "C119", "title": "A history file cut short is refused or read as its first fragments", "statement": "Loading a history file that was cut at any character (interrupted run, full disk) raises, or gives the fragments at the beginning of the complete file with all their numbers except perhaps the very last one; a file cut between events is the file of those events; totals per event belong to the event. (False of the code for three fragments, whose totals have two entries, the second adding a light fragment to the heavy fragment of another event, and for the last number of a cut file, which can be wrong by orders of magnitude without a message.)", "quantifier": "all events, all rank files, all positions of the cut, all limits on the number of events", "why_tests_cant": "all crash points of the writer; a cut inside a number or after three fragments loads without complaint", "anchors": ["tools/CGMFtk/histories.py:55-143", "tools/CGMFtk/histories.py:156-380", "utils/cgmf/cgmf.cpp:444-565"]}
{"id": "C120", "title": "A yields file cut short is refused or read as its first rows", "statement": "Loading a yields file that was cut at any character raises, or gives the rows at the beginning of the complete file with all their numbers except perhaps the last component of the last momentum; every complete file loads with all its events; with an even number of rows the energies per event are sums over the two fragments of the event. (False of the code for three rows and for the last component.)", "quantifier": "all events, all positions of the cut, all limits on the number of events", "why_tests_cant": "all crash points of the writer; a cut inside an exponent or after three rows loads without complaint", "anchors": ["tools/CGMFtk/yields.py:26-124", "libcgmf/src/cgmfEvents.cpp:552-570"]}
{"id": "C121", "title": "The exciton model gives a spectrum for every fissioning system", "statement": "For every target and incident energy up to an excitation of 38 MeV the pre-equilibrium spectrum is defined from the masses and the incident energy alone: all its bins are non-negative, they add up to one or are all zero, no bin lies above the centre-of-mass energy or at zero energy, and every bin with positive cross section and a residual energy above the pairing energy is populated.", "quantifier": "all targets, incident energies, mass tables, optical models with non-negative cross sections", "why_tests_cant": "real-valued conditions over continuous energies; a state density that vanishes or a negative rate in one configuration of one target would show only there", "anchors": ["libcgmf/src/excinterface.cpp: excitonInterface", "libcgmf/src/exciton.cpp: preqExcitonModel, preqEmissionRate", "libcgmf/src/exciparm.cpp", "libcgmf/src/stattrans.cpp: statStoreContinuumTransmission"]}
{"id": "C122", "title": "Pre-fission neutrons drawn from the spectra of the code have positive energies", "statement": "With the spectra the code computes itself on the grids of the successive compound nuclei (exciton model or evaporation for the first neutron, evaporation for the others) and independent uniform random numbers, the joint law of the energies of pre-fission neutrons holds without further assumption on the spectra, and with probability one each neutron has a positive energy, if the fissioning nucleus starts more than one bin above its barrier.", "quantifier": "all chains of nuclei, separation energies, barriers, optical models and level densities with positive values at positive energies, numbers of neutrons", "why_tests_cant": "a law over infinite sequences of random numbers; an index error between the grid of a parent and of its daughter gives plausible energies", "anchors": ["libcgmf/src/evapinterface.cpp: evapInterface", "libcgmf/src/stattrans.cpp: statStoreContinuumTransmission", "libcgmf/src/FissionFragments.cpp:2271-2289", "libcgmf/src/FissionFragments.cpp:5347-5469"]}
{"id": "C123", "title": "Direction cosines are numbers in range, in double arithmetic", "statement": "In double arithmetic, with every operation rounded to a nearest number whatever the rule for ties, the three direction cosines reported for a neutron or photon whose velocity is not tiny are numbers between -1 and 1, and their squares add up to one within eight units of 2^-53. (For a particle at rest they are not numbers.)", "quantifier": "all velocities of doubles with a component of at least 2^-400, all roundings to nearest", "why_tests_cant": "a component that exceeds the rounded length by one bit is too rare to meet in tests, and transport codes reject a cosine above one", "anchors": ["libcgmf/src/specmc.cpp:970-1015", "libcgmf/src/cgmfEvents.cpp:436-449"]}
{"id": "C124", "title": "Drawn directions are never \"not a number\", in double arithmetic", "statement": "In double arithmetic the cosine drawn for an isotropic direction lies in [-1,1), the one drawn from the anisotropy table built by the code (all coefficients from 1/2 to 4) or from any rising table lies in [-1,1], so the sine is the root of a non-negative number and lies in [0,1], with squares adding up to one within five units of 2^-53; the velocity of an emitted pre-fission neutron and the angle of a moving fragment are numbers.", "quantifier": "all random numbers, coefficients, tables, momenta, energies, all roundings to nearest", "why_tests_cant": "1 - cos*cos below zero by one bit happens for isolated random numbers only and then poisons the whole event", "anchors": ["libcgmf/src/FissionFragments.cpp:4801-4818", "libcgmf/src/kinematics.cpp:59-75", "libcgmf/src/kinematics.cpp:255-300", "libcgmf/src/kinematics.cpp:365-390"]}
{"id": "C125", "title": "Drawn indices stay in their tables, in double arithmetic", "statement": "In double arithmetic int(rng*n) is one of 0..n-1 for every random number below one; the charge offset and the mass drawn from 50..200 stay in their windows; any index floor(rng*n+lo) is at most one past its window. (False of the code as a strict bound for windows that start at three times their length or more: the largest random number gives the index one past the window, so that the energy bin of a pre-fission neutron can be the first one that is not allowed.)", "quantifier": "all table sizes up to 2^31, all windows, all doubles in [0,1), all roundings to nearest", "why_tests_cant": "one random number in 2^53 gives the wrong index", "anchors": ["libcgmf/src/FissionFragments.cpp:1349-1361", "libcgmf/src/FissionFragments.cpp:2042", "libcgmf/src/FissionFragments.cpp:5332", "libcgmf/src/FissionFragments.cpp:5381", "libcgmf/src/FissionFragments.cpp:5457"]}
{"id": "C126", "title": "Rounding changes the choice of a state by at most N 2^-51", "statement": "In double arithmetic the running sums that choose the next state, the photon of a level or the initial spin never choose an entry of weight zero, give each entry an interval of random numbers whose ends are within N 2^-51 of the exact ones (N entries, total weight at most 5/4), and end without a choice only for random numbers within N 2^-51 of the total weight or above it. Over all random bits of the generator, entry i is chosen with the probability of its weight within (i+3)/2^50 plus the excess of the total weight over one. (False of the code as an equality: weights that add up to exactly one can be missed.)", "quantifier": "all lists of weights of up to 2^40 entries, all random numbers above zero, all roundings to nearest", "why_tests_cant": "a bias of 1e-13 or a choice of a closed channel for isolated random numbers cannot be sampled", "anchors": ["libcgmf/src/specmc.cpp:425-519", "libcgmf/src/specmc.cpp:560-585", "libcgmf/src/specmc.cpp:598-615"]}
{"id": "C127", "title": "A whole event has the product of the intended probabilities", "statement": "With independent uniform random numbers the probability that an event has a given pair of fragments, a kinetic energy in a given set, given spins and parities, and given particles with energies in given sets and directions in given sets from both fragments, is the yield of the pair times the integral over the normal distribution of the kinetic energy of the probability of the spins and parities times the probabilities of both decays, at the excitation energies that kinetic energy leaves, times the shares of the directions. So the fragments are correlated only through mass, charge and kinetic energy, and directions depend on nothing else.", "quantifier": "all pairs, tables, sets of kinetic energies, spins, parities, decays of any length, measurable sets of energies and directions, all contents of the arrays left by earlier events", "why_tests_cant": "the joint law of a whole event over infinite sequences of random numbers; a random number used twice or a value left from another fragment shows in no marginal distribution", "anchors": ["libcgmf/src/cgmfEvents.cpp:401-433", "libcgmf/src/FissionFragments.cpp:1319-1490", "libcgmf/src/specmc.cpp:113-197", "libcgmf/src/specmc.cpp:902-964", "libcgmf/src/kinematics.cpp:29-239"]}
{"id": "C128", "title": "The fissions of a yields file are independent", "statement": "The fissions of a yields file (cgmf -n with a negative number, cgmfYields) are independent samples with the law of single fissions: the probability that the first has one property, the second another, and so on, is the product of the probabilities of these properties for one event. (False of the code: the number of pre-fission neutrons and the choice between pre-equilibrium and evaporation are drawn once for the whole file, so that all fissions of a file come from the same compound nucleus; events made one by one are independent.)", "quantifier": "all numbers of fissions, properties of fissions, multi-chance probabilities, tables, sequences of random numbers", "why_tests_cant": "a joint law over infinite sequences of random numbers; every single fission has the right law, and each file is a plausible sample of one compound nucleus", "anchors": ["libcgmf/src/cgmfEvents.cpp:533-574", "libcgmf/src/cgmfEvents.cpp:401-402", "libcgmf/src/FissionFragments.cpp:2240-2269", "libcgmf/src/FissionFragments.cpp:1059-1082"]}
{"id": "C129", "title": "Events return the memory they take", "statement": "A run of any number of fission events whose data are there (spontaneous fission, or a listed target with an incident energy in the table) never uses, frees or reads a pointer invalidly, whatever the events draw; the number of arrays in use after an event does not depend on how many events came before, and the program ends with all of them returned. An event whose target is not in the table stops the process when neutrons can be emitted and is undefined otherwise. Calls for fission yields keep all their arrays (more than fifty thousand each), and deleting the object they make is undefined.", "quantifier": "all numbers of events, spontaneous and induced, all numbers of pre-fission neutrons, sampling tries, cascade steps and open channels, all table files", "why_tests_cant": "depends on every branch that an event can take, over histories of any length; a leak per event shows only in long runs", "anchors": ["libcgmf/src/FissionFragments.cpp:84-126", "libcgmf/src/FissionFragments.cpp:588-641", "libcgmf/src/FissionFragments.cpp:2204-2300", "libcgmf/src/FissionFragments.cpp:5190-5320", "libcgmf/src/cgmfEvents.cpp:369-574", "libcgmf/src/specmain.cpp:206-251", "libcgmf/src/specmc.cpp:77-105", "libcgmf/src/omcalc.cpp:46-166", "libcgmf/src/exciton.cpp:52-191", "libcgmf/src/excinterface.cpp:24-128", "utils/cgmf/cgmf.cpp:90-104"]}
{"id": "C130", "title": "Different events draw different random numbers", "statement": "set_seed with different seeds makes the generator give different sequences of random words, and the difference shows within the first 399 words (200 random numbers); so no two events of a run, on the same rank or on different ranks, share their random words. Every random number is a double r with 0 <= r < 1, within 2^-53 of the quotient it stands for, and zero only if both of its words are zero. A generator that was only constructed gives the words of seed 5489 whatever seed it was constructed with.", "quantifier": "all pairs of int seeds, all runs, ranks and events, all words, all histories of draws and reseedings, all roundings to nearest", "why_tests_cant": "2^62 pairs of seeds; two seeds with the same stream, or a number equal to one, would be met by no sample", "anchors": ["libcgmf/include/rngcgm.h:31-47", "utils/cgmf/cgmf.cpp:90-92"]}
{"id": "C131", "title": "Rounding never makes an emitted particle's energy negative", "statement": "In double arithmetic the energy of a neutron or photon recorded for an event is positive whenever the program's own test of the channel let it open, although the test uses the energy of a bin and the record the energy moved within the bin with six roundings: 0.0246 MeV at least for every bin of the continuum but the first, and exactly the tested energy for a discrete level. The first bin of each mesh is exactly at the energy of the decaying state, the state reached is never below the highest level, and recorded plus separation energies of a cascade of any length equal the energy lost up to 2^-45 MeV for each emission.", "quantifier": "all energies, separation energies, level schemes, bins, random numbers and rounding rules on ties", "why_tests_cant": "a wrong last bit shows only for rare energies and ends as a square root of a negative number in the velocity of a neutron", "anchors": ["libcgmf/src/setup.cpp: statSetupEnergyBin, binenergy", "libcgmf/src/specmc.cpp: mcHistoryLoop, mcRestorePopulation, mcStoreHistory", "libcgmf/src/stattrans.cpp: statStoreContinuumTransmission, statStoreDiscreteTransmission"]}
{"id": "C132", "title": "Calls of cgm and of fission events in one process do not disturb each other", "statement": "In a process that calls cgm, cgmf_genfissevent and cgmf_genfissyields in any order, each call returns what it would return for the same random numbers under its own time window: an event the one it asks for, cgm none, so that the photons of a single nucleus are complete down to the ground state. (False of the code: the first call other than yields fixes the window for all later calls of both kinds.)", "quantifier": "all sequences of calls, nuclei, level schemes and random numbers", "why_tests_cant": "the effect needs a mixture of interfaces in one process, and an isomer", "anchors": ["libcgmf/src/cgmfEvents.cpp: cgmEvent::cgmEvent, cgmfEvent::cgmfEvent, cgmfYields::cgmfYields", "libcgmf/src/specmc.cpp: set_time_coincidence_window, mcGammaCascade, specMCMain", "libcgmf/src/cgmfEvents_capi.cpp: cgm, cgmf_genfissevent, cgmf_genfissyields"]}
{"id": "C133", "title": "Every photon of an event has an energy and a direction, in double arithmetic", "statement": "In double arithmetic the boost of a photon into the laboratory gives, for every fragment slower than half the speed of light and all random numbers, a positive energy that equals the Doppler-shifted energy within a relative error of 2^-46 and lies within a factor of two of the energy in the frame of the fragment; the vectors stored for both frames have the respective energy as their length within a relative error of 2^-47 and point along the drawn cosine and azimuth; the direction cosines computed from the stored vectors in both frames are numbers between -1 and 1 whose squares add up to one within eight units of 2^-53.", "quantifier": "all momenta, masses, photon energies of at least 2^-300 MeV, random numbers and roundings to nearest", "why_tests_cant": "a root of a negative number or a vanishing length happens for isolated random numbers only, and one such photon poisons a transport calculation", "anchors": ["libcgmf/src/kinematics.cpp:190-234", "libcgmf/src/specmc.cpp:990-1014"]}
{"id": "C134", "title": "The summary table shows the averages its rows and columns name", "statement": "For every history of complete events Histories.summaryTable() has its eleven rows, and every number, read back from the text, is within half a unit of its last decimal of the average over events, fragments or particles that its row and column name (nan when there is nothing to average, zero for the energy of pre-fission neutrons); so light and heavy add up to the first column for excitation energy, kinetic energy, neutrons and photons, to twice the first column for mass, charge, spin and parity, and all plus pre-fission neutrons to the total.", "quantifier": "all histories of any number of events, with any numbers of particles", "why_tests_cant": "the table must agree with the events for every file; a column taken from the wrong fragment or a total counted twice gives plausible numbers", "anchors": ["tools/CGMFtk/histories.py:1513-1543", "tools/CGMFtk/histories.py:610-616", "tools/CGMFtk/histories.py:738-814"]}
{"id": "C135", "title": "An energy threshold means the same in all methods of the toolkit", "statement": "The multiplicities per fragment above a threshold (getNuEnergyCut, getNugEnergyCut) are at most the recorded ones, decrease with the threshold, equal the recorded ones below the smallest energy, and their mean is what nubarg(Eth) returns. (False of the code: the former count energies strictly above the threshold, the latter energies equal to it as well; they differ exactly by the photons whose energy is the threshold, which is not rare because the energies in a file have few decimals.)", "quantifier": "all histories and thresholds", "why_tests_cant": "agreement for every file and threshold; the difference shows only for a threshold that is one of the energies in the file", "anchors": ["tools/CGMFtk/histories.py:441-449", "tools/CGMFtk/histories.py:471-479", "tools/CGMFtk/histories.py:659-670"]}
{"id": "C136", "title": "From the seeds of a parallel run to the numbers in the notebook", "statement": "For every run of cgmf on any number of ranks, the history files of the ranks joined in order load in the toolkit as one history with exactly one event per seed start, ..., start+np*n-1 in this order, and every number of its summary table is the average over these events of what row and column name, up to the decimals printed in the file and in the table; the division into ranks does not matter. (A file whose fragments all emitted equally many neutrons or equally many photons does not load, C64.)", "quantifier": "all numbers of ranks and events, first seeds, random engines, event generators, events with any numbers of particles", "why_tests_cant": "end to end over all runs: seeds, event loop, printing, joining, parsing and averaging each have local tests that cannot see a shift between them", "anchors": ["utils/cgmf/cgmf.cpp:60-111", "utils/cgmf/cgmf.cpp:444-565", "tools/CGMFtk/histories.py:55-143", "tools/CGMFtk/histories.py:1513-1543"]}
{"id": "C137", "title": "The summary on the screen and the table in the notebook agree", "statement": "For every run of cgmf on any number of ranks whose files load, every number of the summary printed by rank 0 that has a place in the summary table of the toolkit (charges, masses, kinetic and excitation energies and spins of the light and heavy fragment and in total, multiplicities of neutrons and photons, mean energies of neutrons and photons) agrees with it up to half a unit of the last decimal on both sides and in the file. A mean over no particles is zero on the screen and nan in the notebook. (The mean centre-of-mass energy of all neutrons has no counterpart: the screen mixes the pre-fission neutrons into it.)", "quantifier": "all numbers of ranks and events, first seeds, random engines, event generators, events", "why_tests_cant": "two programs in two languages compute the same averages by different means from different representations of the events", "anchors": ["utils/cgmf/cgmf.cpp:124-201", "utils/cgmf/cgmf.cpp:208-361", "tools/CGMFtk/histories.py:1513-1543"]}
{"id": "C138", "title": "The counters of a run do not overflow", "statement": "The whole numbers behind the summary (sums of masses, charges, neutrons and photons over all events of all ranks) are the exact totals for every number of events the command line accepts, and every event has its own seed. (False of the code: the counters and the seed are 32-bit numbers. They are exact if and only if every total is below 2^31, which holds up to 7158278 events; every run of 18354888 events or more overflows the sum of the heavy masses, on any number of ranks.)", "quantifier": "all numbers of ranks and events, all events with masses and charges that are not negative", "why_tests_cant": "runs of ten million events take hours, and the wrong average mass is printed without a warning", "anchors": ["utils/cgmf/cgmf.cpp:44-46", "utils/cgmf/cgmf.cpp:91", "utils/cgmf/cgmf.cpp:124-201", "utils/cgmf/cgmf.cpp:217-311"]}
{"id": "C139", "title": "Numbers on the command line are read as written", "statement": "Every option of cgmf given as a number (events, target, first event as whole numbers, energy and window as decimal numbers with or without fraction and exponent) sets exactly this number, wherever it stands among the arguments; an argument that is not a number as a whole is refused. (The second part is false of the code: atoi and atof ignore what follows the first number in a word. -n 1e6 writes one event, -n 10,000 ten, -e 1,5 is 1 MeV and -e thermal is 0.)", "quantifier": "all command lines, all texts of numbers, all texts after them", "why_tests_cant": "every number, in every notation, before any other text; a run with the wrong number of events or the wrong energy looks like any other run", "anchors": ["utils/cgmf/cgmf.cpp:378-405", "utils/cgmf/cgmf.cpp:60-111"]}
{"id": "C140", "title": "The C interface gives every number of the event, and all of its functions exist", "statement": "In a C program, after cgmf_genfissevent every accessor of the interface, called in any order, any number of times and with any index, returns the quantity of its name of the event made last (masses, charges, energies, spins, parities, momenta and directions of the light or heavy fragment, multiplicities, energies, directions and times of neutrons and photons of both fragments with the light fragment first, pre-fission neutrons, -1 outside the range), and every function that the header declares can be called. (The last part is false of the code: the directions of the fragments after emission, cgmf_getpostlfdircosu to cgmf_getposthfdircosw, are defined nowhere, and cgmf_genfissyields is defined with another parameter list and hence without C linkage, so that a program that uses one of them does not link. Before the first event an accessor reads through a null pointer.)", "quantifier": "all programs that make events and call accessors, all events, all indices", "why_tests_cant": "sixty accessors in every order and history of events; two that are exchanged give plausible numbers, and a function that is missing shows only in a program that uses it", "anchors": ["libcgmf/include/cgmfEvents_capi.h:17-110", "libcgmf/src/cgmfEvents_capi.cpp:20-231", "libcgmf/include/cgmfEvents.h:44-218"]}
{"id": "C141", "title": "Tables printed in columns are read digit for digit", "statement": "A table of masses, deformations, discrete levels, level density parameters or temperature ratios whose numbers stand in the documented columns, with any blanks around them and in any notation (sign, fraction, exponent), is read as exactly the numbers written, row by row, whatever the columns that are not used contain; everything that printf writes with a width and %d or %f and that fits its column counts, with the value within half a unit of its last digit. So a user's own table in the current directory has the effect its text says.", "quantifier": "all tables of any length, all texts of numbers, all contents of the columns that are not used, all numbers that fit", "why_tests_cant": "all tables and all notations of numbers; a column taken one character too short drops a digit only for numbers that fill it", "anchors": ["libcgmf/src/FissionFragments.cpp:4832-4880", "libcgmf/src/FissionFragments.cpp:4380-4420", "libcgmf/src/ripl2levels.cpp:80-200", "libcgmf/src/kcksyst.cpp", "libcgmf/src/FissionFragments.cpp:1955-1995"]}
{"id": "C142", "title": "Kinetic energies drawn are numbers near the average, in double arithmetic", "statement": "In double arithmetic a normally distributed number returned by the polar method is a number for all random numbers (never the root of a negative number or a quotient by zero), is at most 12.125 in absolute value, and equals, up to the accuracy of the library's logarithm, the number the method asks for at the first pair of random numbers inside the disc. So a total kinetic energy drawn for a mass is a number within 12.125 widths of the rescaled average of this mass, and positive when the average is more than 12.13 widths above zero.", "quantifier": "all sequences of random numbers, averages, widths and rescaling factors, all roundings to nearest, all logarithms with six correct digits", "why_tests_cant": "one of 2^106 pairs of random numbers gives the extreme, and a sum of squares that underflows to zero or rounds to one would be met by no sample", "anchors": ["libcgmf/src/Yields.cpp:655-664", "libcgmf/src/Yields.cpp:687-703"]}
{"id": "C143", "title": "cgm refuses nuclei and energies out of its range, and does not give energy away", "statement": "A call of cgm for a nucleus or an excitation energy out of the range of the code (charge 6 to 118, mass 12 to 300, energy above zero and below the top of the energy mesh) ends with an error instead of a result, so that no photon has more energy than was asked for. (Only part is true of the code: an energy above the mesh and a nucleus without a mass stop the process for all random numbers; but cgmCheckRange is called by nobody, and an energy of zero or below is answered with the photon of the first excited level, whatever the nucleus.)", "quantifier": "all nuclei, tables of masses and levels, energies and random numbers", "why_tests_cant": "the refusal must hold for every nucleus, energy and random number; a test calls cgm with energies that make sense", "anchors": ["libcgmf/src/cgmfEvents.cpp cgmCheckRange, cgmEvent::cgmEvent", "libcgmf/src/setup.cpp statTotalNeutrons, statSetupInitSystem, statSetupEnergyBin", "libcgmf/src/popinit.cpp statStoreLevelExcite", "libcgmf/src/specmc.cpp specMCMain"]}
{"id": "C144", "title": "The rank files of an interrupted parallel run give the events that were completed", "statement": "When a parallel run is killed, each rank's file may end at another place. The files joined as those of a complete run (rank 0 first) either are refused by the toolkit or give events that happened: both fragments of every event, and its totals, come from one fission. (True when every rank was stopped between two events, and refused when an odd number of ranks was stopped between the two fragments of an event; false when an even number was: the joined file is loaded, and from the first cut on every event consists of fragments of two different fissions; the reader prints a line for such an event only if the masses do not happen to add up, and goes on. For complete events it prints nothing.)", "quantifier": "all numbers of ranks and events, all contents of events, all places between fragments", "why_tests_cant": "tests join files of runs that ended; the pairing depends on how many ranks were stopped where", "anchors": ["utils/cgmf/cgmf.cpp:60-120", "utils/cgmf/cgmf.cpp:444-565", "tools/CGMFtk/histories.py:55-143", "tools/CGMFtk/histories.py:156-380"]}
{"id": "C145", "title": "Neutrons of an event have their kinetic energy and momentum is balanced, in double arithmetic", "statement": "In double arithmetic every neutron of an event, emitted before fission or by a fragment, whatever the random numbers, is recorded with velocities that are numbers: in the frame of the nucleus it has the drawn direction and the given energy within a relative error of 2^-46, in the laboratory the sum of both velocities within 2^-53 of the speed of light, and the recorded energy is half the mass times the square of the recorded velocity within a relative error of 2^-50. The light fragment moves, relative to the fissioning nucleus, along the drawn direction with the momentum that belongs to the kinetic energy left by the motion of the nucleus, within 2^-38 MeV for each component. The momenta of the fragments after emission and of all neutrons add up to the momentum of the incident neutron along the axis, up to 2^-37 MeV for each neutron and for the division of the nucleus.", "quantifier": "all energies of neutrons up to 29 MeV, incident energies up to 32 MeV, kinetic energies from 96 to 256 MeV, masses of nuclei and fragments of fission, directions drawn isotropically or from tables, numbers of neutrons, random numbers, all roundings to nearest", "why_tests_cant": "a lost bit or an error that grows with the number of neutrons, for isolated random numbers, and the balance over continuous energies and directions", "anchors": ["libcgmf/src/kinematics.cpp:250-299", "libcgmf/src/kinematics.cpp:179-189", "libcgmf/src/kinematics.cpp:325-393"]}
{"id": "C146", "title": "Numbers between blanks are read digit for digit", "statement": "The tables of temperatures and level density parameters, taken from the file number by number, are read as exactly the numbers written, in any notation (sign, fraction, exponent) and with any white space between them; a number is taken whole and nothing after it is lost. (What is not refused: a nucleus written with a point. Its fraction becomes the first value, all values of the row move by one place, and the last one is taken as the next nucleus.)", "quantifier": "all tables of any length, all texts of numbers, all white space", "why_tests_cant": "all notations and layouts of a table; a number taken one character too short moves every number after it", "anchors": ["libcgmf/src/FissionFragments.cpp:4429-4476", "libcgmf/src/FissionFragments.cpp:4542-4574"]}
{"id": "C147", "title": "Energy of a fission is shared without loss, and the sharing ends, in double arithmetic", "statement": "In double arithmetic the total excitation energy of a pair of fragments is the energy released plus the incident and separation energies less the kinetic energy, within 2^-41 MeV. Whatever the sharing returns, both fragments have a positive energy, the energies add up to the total within 2^-52 of it, the heavy share is the one that the ratio of temperatures gives for the tabulated level density parameters within 6 units of 2^-53, and with the kinetic energy everything adds up to the energy available within 2^-40 MeV. The kinetic energies are in the inverse ratio of the masses and add up to the total. The level density parameters are the exact interpolation within 2^-43. The iteration ends: for parameters that do not fall with the energy, and, rising or falling, for parameters that change by at most 1/16 of their least value per MeV and up to 30 MeV to be shared, after at most 201 passes.", "quantifier": "all mass excesses up to 256 MeV, kinetic energies up to 512 MeV, incident and separation energies up to 32 MeV, level density parameters from 1 to 64, ratios of temperatures from 1/8 to 8, all tables of any length, all roundings to nearest", "why_tests_cant": "an iteration that rounding keeps from settling, for isolated energies; energy lost in a rounding for some pair of fragments", "anchors": ["libcgmf/src/FissionFragments.cpp:1403-1409", "libcgmf/src/FissionFragments.cpp:1444-1461", "libcgmf/src/FissionFragments.cpp:1676-1735", "libcgmf/src/FissionFragments.cpp:4582-4600"]}
{"id": "C148", "title": "The averages of a run survive rounding, whatever the number of ranks", "statement": "In double arithmetic every number of the summary of a run is the average it names over all events or over all particles of a kind, up to a relative error of 2^-52 for every event, particle and rank, whatever the number of ranks and the order in which MPI adds their totals; two runs of the same events on different numbers of ranks agree up to twice that. The same bound holds for the mean of a column in the toolkit, in whatever order numpy adds.", "quantifier": "all runs with up to 2^52 events and particles, all divisions into ranks, all orders and groupings of the reduction (a different one for every number), all values that are not negative and, unless zero, not below 2^-300", "why_tests_cant": "the order of a reduction is chosen by the MPI library and changes with the number of ranks; the loss of digits grows with the length of a run", "anchors": ["utils/cgmf/cgmf.cpp:124-201", "utils/cgmf/cgmf.cpp:208-361"]}
{"id": "C149", "title": "Masses, charges, spins and neutron numbers are drawn with the probabilities of their tables, in double arithmetic", "statement": "With the 64 random bits of which each random number is made and all operations rounded, a turn of an accept-or-reject loop over a table with n entries accepts entry i with the probability table[i]/(n m), m the largest entry, within 18 units of 2^-53, and with growing number of turns the probability that the loop returns entry i tends to the share of the entry in the table within n^2/2^45; the probability that the loop still runs after k turns is at most (1-1/(4n))^k. For masses in the window 50 to 200 the shares are met within 10^-9, for charges within (2d+1)^2/2^45, and for the initial spin, whose weights are added and divided by their sum in double arithmetic, within n^2/2^44 of the share of the weight.", "quantifier": "all tables with up to 2^20 entries, all weights, all entries, all roundings to nearest; the probability is over all outputs of the engine", "why_tests_cant": "a bias of an index or a boundary that rounds the wrong way is far below the statistics of any sample, and an entry that is never drawn is not seen", "anchors": ["libcgmf/src/FissionFragments.cpp:1345-1372", "libcgmf/src/FissionFragments.cpp:2030-2043", "libcgmf/src/FissionFragments.cpp:5327-5335", "libcgmf/src/FissionFragments.cpp:5378-5382", "libcgmf/include/rngcgm.h:34-45"]}
{"id": "C150", "title": "Directions are isotropic and parities even, over all random bits", "statement": "Over all outputs of the generator and with all operations rounded, the direction of a fragment, neutron or photon drawn isotropically has a cosine of at most x and an azimuth of at most the part s of a turn with the probability s(x+1)/2, the share of this piece in the sphere, within 11 units of 2^-53, and each of the four combinations of parities of the two fragments has the probability 1/4 within 2^-50.", "quantifier": "all x and s, all constants for a turn of at least one, all roundings to nearest; the probability is over all outputs of the engine", "why_tests_cant": "a bias below the statistics of a sample, for every piece of the sphere", "anchors": ["libcgmf/src/FissionFragments.cpp:1468-1469", "libcgmf/src/FissionFragments.cpp:1486-1487", "libcgmf/src/kinematics.cpp:103-104", "libcgmf/src/kinematics.cpp:200-201", "libcgmf/src/kinematics.cpp:263-281", "libcgmf/src/kinematics.cpp:367-371"]}
{"id": "C151", "title": "A level emits its photons in the ratio of the intensities in the file, over all random bits", "statement": "Over all outputs of the generator and with all operations rounded, a level with n transitions in the level file emits the photon of transition j with the probability of its share of the intensities times 1/(1+ic), and an electron in its place with that share times ic/(1+ic), ic the conversion coefficient in the file, within (2n+6)/2^50. A level whose intensities are all zero emits each of its photons with the probability 1/n and never an electron. The probability that a pass over the level chooses nothing is at most (3n+7)/2^50.", "quantifier": "all levels with up to 2^20 transitions, all intensities that are not negative with a sum from 2^-300 to 2^100, all conversion coefficients up to 2^100, all roundings to nearest; the probability is over all outputs of the engine", "why_tests_cant": "a normalisation that rounds to a sum below one leaves a level without decay for rare random numbers; a wrong share below the statistics of a sample is not seen", "anchors": ["libcgmf/src/ripl2levels.cpp:180", "libcgmf/src/ripl2levels.cpp:445-470", "libcgmf/src/specmc.cpp:565-575"]}
{"id": "C152", "title": "Photons are late according to the half-lives, over all random bits", "statement": "Over all outputs of the generator and with all operations rounded, the time spent in a level with half-life T exceeds x with the probability 2^(-x/T), up to four times the relative error of the logarithm of the library and 31 units of 2^-53; a cascade that starts in the level is cut by a coincidence window x before the first photon with the same probability. Times never decrease along a cascade.", "quantifier": "all half-lives from 2^-300 to 2^300, all times and windows, all logarithms with a relative error of at most 2^-10, all roundings to nearest; the probability is over all outputs of the engine", "why_tests_cant": "the tail of long times is never sampled, and a random number of zero gives an infinite time once in 2^64 draws", "anchors": ["libcgmf/src/specmc.cpp:557-561", "libcgmf/include/physics.h:48"]}
{"id": "C153", "title": "Every path of photons has its probability, over all random bits", "statement": "Over all outputs of the generator and with all operations rounded, a cascade from a discrete level takes a given path to the ground state, each step with a photon or a conversion electron, with the product of the shares of the intensities in the level file and of 1/(1+ic) or ic/(1+ic) along it (equal shares and no electrons where a level has no intensities), within (5n+13)/2^50 for every step, n the largest number of transitions of a level, also when passes that choose nothing are repeated.", "quantifier": "all level schemes with up to 2^20 transitions per level, all starting levels, all paths to the ground state, all numbers of passes that suffice, all roundings to nearest; the probability is over all outputs of the engine", "why_tests_cant": "there are exponentially many paths, and rare ones are never sampled", "anchors": ["libcgmf/src/specmc.cpp:525-592", "libcgmf/src/ripl2levels.cpp:445-470"]}
{"id": "C154", "title": "Forced transitions reach each allowed level equally often, over all random bits", "statement": "Over all outputs of the generator, a transition forced to a discrete level (when the choice finds no state, when the decay ends just above the levels, or when no channel is open) ends on each of the n levels of opposite parity within two units of spin with the probability 1/n, within 3 n^2 units of 2^-53, and on each other level with at most that; it uses one random number for each of the n levels. Without such levels it uses none and ends on the first level of the closest spin, or, when no channel is open, on the last. (The difference is the chance that two of the random numbers are equal.)", "quantifier": "all level schemes of any length, all states, all roundings to nearest; the probability is over all outputs of the engine", "why_tests_cant": "the chance is over 2^(64n) outputs; a test sees a few thousand.", "anchors": ["libcgmf/src/specmc.cpp:374-396", "libcgmf/src/specmc.cpp:491-513", "libcgmf/src/specmain.cpp:348-386", "libcgmf/src/rngcgm.h:45"]}
{"id": "C155", "title": "States reached in the continuum are uniform in their bins, over all random bits", "statement": "With all operations rounded, the energy of a state reached in the continuum never leaves its bin, whatever the random bits: it is at least the midpoint to the next energy of the mesh (and the highest level) and at most the midpoint to the previous one (the energy itself in the first bin). Over all outputs of the generator it is at most x with the probability of the part of the bin below x, within 2^-36.", "quantifier": "all maximum energies for which the mesh exists, all highest levels, all bins of the continuum, all random bits, all roundings to nearest", "why_tests_cant": "an energy outside its bin would need particular low bits of energies and random numbers", "anchors": ["libcgmf/src/specmc.cpp:351-363", "libcgmf/src/setup.cpp:117-176", "libcgmf/src/rngcgm.h:45"]}
{"id": "C156", "title": "A pass of the decay in the continuum follows the populations, over all random bits", "statement": "Over all outputs of the generator and with all operations rounded, one pass of the decay loop reaches a level with the probability of its population; a state of a bin after a neutron, with an energy of at most x, with its population times the part of the bin below x; a state of a bin of the same nucleus, with an energy between the cut (the highest level plus 0.02 MeV) and x, with its population times that part of the bin; and it is forced to level m from such a state below the cut, or without any choice, with the population times the part of the bin below the cut, or with what the populations leave of one, times the probability of the forced transition. The error for state i is at most 2^-36 + (i+3) 2^-50, plus the excess of the populations over one and 3 c^2 2^-53 for c levels open to the forced transition.", "quantifier": "all lists of up to 2^40 states with populations that add up to at most 5/4, all meshes, levels and cuts, all roundings to nearest; the probability is over all outputs of the engine", "why_tests_cant": "there are hundreds of thousands of states per pass and their probabilities span many orders of magnitude", "anchors": ["libcgmf/src/specmc.cpp:346-400", "libcgmf/src/specmc.cpp:420-519", "libcgmf/src/rngcgm.h:45"]}
{"id": "C157", "title": "Neutrons and photons compete by their total populations, and spectra add up, over all random bits", "statement": "Over all outputs of the generator and with all operations rounded, the probabilities with which the decay loop chooses its N states differ from their populations by at most N 2^-49 in total (all differences added up), plus the excess of the sum of the populations over one. So a neutron, or any other group of states, is emitted with the sum of the populations of its states; and a pass ends in a state of the group with an energy of at most x with the sum of population times part of the bin at most x, within 2^-36 + N 2^-49 and the excess: the cumulative spectrum of a pass is that of the populations.", "quantifier": "all lists of up to 2^40 states with populations that add up to at most 5/4, all groups of states, all energies x, all meshes, levels and cuts, all roundings to nearest; the probability is over all outputs of the engine", "why_tests_cant": "small errors of many states could add up in a group; there are up to hundreds of thousands of states, and the competition of neutrons and photons decides the multiplicity", "anchors": ["libcgmf/src/specmc.cpp:346-400", "libcgmf/src/specmc.cpp:420-519", "libcgmf/src/rngcgm.h:45"]}
{"id": "C158", "title": "Laboratory energies of neutrons are uniform between their limits, and fast fragments focus them forward", "statement": "A neutron emitted from a moving fragment with the energy e in the frame of the fragment has a laboratory energy between (sqrt e - sqrt f)^2 and (sqrt e + sqrt f)^2, f the energy a neutron has at the speed of the fragment, and is uniform between them; it goes into the forward half of the directions, seen from the motion of the fragment, with the probability (1 + min(1, sqrt(f/e)))/2, so always if the fragment is as fast as the neutron or faster.", "quantifier": "all momenta and masses of the fragment, all emission energies, all energies between the limits; the probability is over independent uniform random numbers", "why_tests_cant": "a histogram of one run shows neither the exact law nor its limits, and the law must hold for every direction and speed of the fragment", "anchors": ["libcgmf/src/kinematics.cpp:250-296"]}
{"id": "C159", "title": "Laboratory energies of photons follow the Doppler shift of an isotropic emission", "statement": "A photon of energy e emitted isotropically by a fragment of speed b has a laboratory energy that follows the law of the Doppler shift over all directions of emission, uniform between e sqrt((1-b)/(1+b)) and e sqrt((1+b)/(1-b)).", "quantifier": "all speeds below that of light, all momenta of the fragment, all photon energies, all energies between the limits; the probability is over independent uniform random numbers", "why_tests_cant": "the two laws differ by less than the speed of the fragment, a few per cent, which no comparison of averages of a run reveals", "anchors": ["libcgmf/src/kinematics.cpp:190-232"]}
{"id": "C160", "title": "Recoils of a chain of neutrons cancel on average", "statement": "When a fragment emits a chain of neutrons of given energies, its momentum at the end is on average the initial one less the share mn/m of every neutron, each neutron has on average the velocity of such a fragment, the mean square of the momentum is multiplied by (1-mn/m)^2 and grows by 2 mn e with every neutron of energy e, and neutron j has on average the laboratory energy e_j plus that of a neutron at the mean square velocity of the fragment.", "quantifier": "all numbers of neutrons, all energies, masses and initial momenta; the average is over independent uniform random numbers", "why_tests_cant": "averages over finite runs never agree exactly, and a preferred direction of one neutron in a long chain is below their errors", "anchors": ["libcgmf/src/kinematics.cpp:180-189", "libcgmf/src/kinematics.cpp:250-296"]}
{"id": "C161", "title": "Photons gain energy on average by the motion of the fragment", "statement": "A photon of energy e emitted isotropically by a fragment of speed b has the average laboratory energy e/sqrt(1-b^2).", "quantifier": "all speeds below that of light, all momenta of the fragment, all photon energies; the average is over independent uniform random numbers", "why_tests_cant": "the effect is of second order in the speed, a tenth of a per cent, far below the statistics of a run", "anchors": ["libcgmf/src/kinematics.cpp:190-232"]}
