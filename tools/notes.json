{
 "C06": {
  "status": "partial",
  "note": "The property is false for the code: C06_is_empty_false gives a history after which size() is 0 and is_empty() is false. Proved: is_empty() implies that there is no particle."
 },
 "C04": {
  "status": "proved",
  "note": "Up to the next reset(), as stated; C04_reset_revives shows the restriction is needed."
 },
 "C03": {
  "status": "proved",
  "note": "Asserts and array bounds; 32-bit overflow excluded while fewer than 2^29 ids are in use."
 },
 "C61": {
  "status": "partial",
  "note": "False for the code: begin() iterates the heap's vector from its end (C61_begin_not_earliest, C61_begin_is_latest_of_two). Proved: with at most one action begin() yields the earliest."
 },
 "C08": {
  "status": "proved",
  "note": "For times within 10^12 fm and steps of at least half the clock resolution (C08_tiny_step_stalls shows the latter is needed)."
 },
 "C09": {
  "status": "partial",
  "note": "False for the code: the overflow test of next_time() itself overflows, += of a duration is unchecked and += of a negative number overflows in its guard (witness theorems). Proved: ++ and += of a non-negative number are exact or throw; next_time() is exact or throws while the elapsed ticks fit in 64 bits."
 },
 "C11": {
  "status": "proved",
  "note": "For every box and particle list; C11_cell_count_overflows shows that without a cell limit the int cell count can overflow. With Normal boundaries and the Largest strategy unformed particles are not filtered out."
 },
 "C12": {
  "status": "proved",
  "note": "Every pair closer than the interaction length is offered exactly once, no others twice."
 },
 "C13": {
  "status": "partial",
  "note": "Proved for the optimal strategy and for boxes of at least twice the interaction length, with a relative margin for the nextafter correction. C13_largest_cells_miss_pair shows the property fails for the Largest strategy in a box narrower than the interaction length."
 },
 "C14": {
  "status": "partial",
  "note": "Proved for every code made from an integer and for every decimal string; false for strings with hexadecimal digits in n, n_R, n_L (C14_hex_collision, C14_hex_unreadable)."
 },
 "C15": {
  "status": "partial",
  "note": "Involution, opposite quantum numbers, neutrality of self-conjugate codes and acceptance of the negated number proved; exceptions exhibited: W+ (charged, no antiparticle) and K0_L/K0_S (has_antiparticle but negative code rejected)."
 },
 "C16": {
  "status": "proved",
  "note": "For hadrons with quark digits 0..6 (all that the constructors accept) and for nuclei; digit table checked completely in the kernel."
 },
 "C17": {
  "status": "partial",
  "note": "Accepted strings are optional sign and hexadecimal digits; the parsed number is the written one for decimal strings except when the 8th digit wraps (C17_wraps) or nucleus fields overflow (C17_nucleus_wraps)."
 },
 "C18": {
  "status": "proved",
  "note": "Full statement, for every lattice the constructor makes."
 },
 "C19": {
  "status": "partial",
  "note": "Non-periodic lattices: complete. Periodic lattices: complete up to 256 periods on the negative side, beyond that false (C19_far_cube)."
 },
 "C20": {
  "status": "proved",
  "note": "Scalar and four-vector gradients, periodic and not; exact arithmetic."
 },
 "C21": {
  "status": "partial",
  "note": "Holds without new cell numbers; false with new cell numbers (C21_new_cells_break_storage): the storage is not resized."
 },
 "C62": {
  "status": "partial",
  "note": "Proved for baryons and for mesons written heavier quark first; false for K0_L = 130 (C62_kaon_inconsistent)."
 },
 "C63": {
  "status": "proved",
  "note": "Full statement."
 },
 "C64": {
  "status": "partial",
  "note": "Proved for codes made from integers; false for nuclei (C64_nuclei_confused)."
 },
 "C65": {
  "status": "partial",
  "note": "Non-periodic: complete. Periodic: up to 256 periods on the negative side, beyond that the storage is left (C65_far_point)."
 },
 "C66": {
  "status": "partial",
  "note": "Proved for points on the lattice; points outside are not checked by the code (C66_outside_point)."
 },
 "C22": {
  "status": "proved",
  "note": "Double arithmetic is exact (rationals); C22_far_outside shows what happens to coordinates more than one box length outside."
 },
 "C23": {
  "status": "partial",
  "note": "Proved for particles faster than 1e-6 in the crossing direction; slower ones are never given a wall crossing (C23_slow_particle)."
 },
 "C24": {
  "status": "proved",
  "note": "Against FIPS 180-4 written separately; message length modulo 2^64 bits as in the standard's limit."
 },
 "C25": {
  "status": "proved",
  "note": "Lock files are touched by FileLock objects only and remove() succeeds; copying a FileLock object (possible in C++) is not modelled."
 },
 "C26": {
  "status": "partial",
  "note": "The file under the final name is complete if every write succeeds; a failing fclose is ignored and an incomplete file gets the final name (C26_io_error)."
 },
 "C27": {
  "status": "partial",
  "note": "fill_left/right/both throw when the text is wider than the field (C27_fill_too_wide); remove_substr with an empty pattern does not terminate (C27_remove_empty)."
 },
 "C28": {
  "status": "partial",
  "note": "Holds for files with Unix line ends; with CRLF line ends blank lines are returned (C28_carriage_return)."
 },
 "C29": {
  "status": "proved",
  "note": "Real arithmetic in place of doubles; velocities of size 1 or more give no boost (C29_not_subluminal)."
 },
 "C30": {
  "status": "partial",
  "note": "Below |ma-mb| the function returns a positive momentum (C30_far_below), so 'zero below threshold' is proved only from |ma-mb| on."
 },
 "C31": {
  "status": "partial",
  "note": "Fixed target and two-beam total energies are right; s_from_Ekin for two beams is right for equal masses only and s_from_plab for two beams is wrong unless |m1-m2| = |p1-p2| (counterexamples proved)."
 },
 "C59": {
  "status": "partial",
  "note": "<, > and == as documented; <= and >= hold already if one component is smaller/larger or equal (C59_le_wrong)."
 },
 "C68": {
  "status": "proved",
  "note": "Real arithmetic in place of doubles."
 },
 "C67": {
  "status": "partial",
  "note": "rotate_z_axis_to is right unless both transverse components of its argument are below 1e-6 (C67_tiny_vector); the angle ranges hold after calls that return, a rejected set_costheta leaves the rejected value in the object (C67_rejected_value_kept)."
 },
 "C32": {
  "status": "proved",
  "note": "any rounded addition that is monotone; the measure statement is for real weights"
 },
 "C33": {
  "status": "proved",
  "note": "momenta are exact numbers or NaN; the tolerance of operator== is part of the model"
 },
 "C34": {
  "status": "proved",
  "note": "real arithmetic; positive masses; the rejection loop is represented by the accepted random numbers"
 },
 "C35": {
  "status": "proved",
  "note": "set_history and perform; FailedString products keep the parents they had"
 },
 "C36": {
  "status": "proved",
  "note": "real arithmetic, real power"
 },
 "C69": {
  "status": "partial",
  "note": "the norm is right, orthogonality is refuted by C69_not_orthogonal: the code boosts with +v instead of -v; C69_right_direction shows that -v would be orthogonal"
 },
 "C70": {
  "status": "partial",
  "note": "proved when the total is not parametrised; C70_parametrized refutes it for parametrised totals"
 },
 "C37": {
  "status": "proved",
  "note": "merging for every history of add_mode, normalisation for every list, and for every whole file with consistent multiplets"
 },
 "C38": {
  "status": "partial",
  "note": "accepted two-body and three-body (given states) decays are couplable; the converse holds unless the spins lie strictly inside the triangle; C38_rejects_allowed and C38_three_multiplets_wrong refute the full statement"
 },
 "C71": {
  "status": "partial",
  "note": "proved if the isospin coefficients respect charge; C71_charge_violated shows that for multiplets only isospin is checked; splitting lines into words is not modelled"
 },
 "C39": {
  "status": "proved",
  "note": "The 189 literals of the table are checked against Racah's formula (values to 1e-15), completeness for isospins up to 3/2, distinct keys, injective hash; memoised look-up over every history of calls; calculated values given an exact 3j symbol (GSL is not modelled); uniqueness test of the three-body coupling, total isospin range and reversibility."
 },
 "C40": {
  "status": "partial",
  "note": "Exact set of remaining keys after every history, returned values, emptiness and destructor for all well-formed trees (no repeated keys, no empty key). The claim fails for take(key, default), which returns the default for a key taken before (C40_twice_with_default), for the empty key (C40_empty_key_lost) and for repeated keys (C40_repeated_key); has_value throws below a sequence."
 },
 "C41": {
  "status": "proved",
  "note": "Exact set of keys after merging, or exception, for texts without empty sections that do not use a sequence as a section; the behaviour of an empty text, an empty map and a sequence used as a section is stated separately."
 },
 "C72": {
  "status": "proved",
  "note": "Exact key sets after extraction, enclosure, set_value (unless a sequence is used as a section) and removal of entries."
 },
 "C73": {
  "status": "partial",
  "note": "Result of validation characterised for every configuration and database; validation is undefined behaviour if a key of the configuration is a proper prefix of a key read as a map (C73_short_key_ub), defined otherwise."
 },
 "C42": {
  "status": "partial",
  "note": "Everything for exact arithmetic and all arguments up to 2^64 (linear) or 2^32 (step) grid steps; beyond, the conversion to an integer is undefined behaviour (C42_far_ub, third part of C42_step_partial)."
 },
 "C43": {
  "status": "proved",
  "note": "Round trip bit by bit, other hashes give the empty table, and every history of calls on a cache directory uses the right table. A truncated file with the right hash is accepted (C43_truncated): the stream state is never checked."
 },
 "C44": {
  "status": "proved",
  "note": "For exact arithmetic and fewer than 2^64 values."
 },
 "C45": {
  "status": "proved",
  "note": "For exact arithmetic; std::sort and std::lower_bound by contract. With a single point every evaluation reads outside the vector (C45_defined)."
 },
 "C74": {
  "status": "proved",
  "note": "The GSL spline itself is a parameter."
 },
 "C46": {
  "status": "proved",
  "note": "Loop over the queue, timesteps and output times of one ensemble, for every particle list, heap implementation, every outcome of the attempted actions and every set of newly found actions. Assumed of the rest of the program (structure Fair): performing an action leaves all particles at its time, searches find no action before the time of the particles, potentials and expansion keep the times."
 },
 "C47": {
  "status": "partial",
  "note": "Proved for one call of run_time_evolution to the end, uniform interval and list of times, times rounded to the clock resolution. False for several calls per event (C47_two_calls_false), for a list of times in a later event with an earlier start (C47_second_event_false); the label of the final output is wrong with a list of times (C47_final_label_false)."
 },
 "C48": {
  "status": "proved",
  "note": "Event loop, all outcomes; the counters are unbounded integers in the model."
 },
 "C49": {
  "status": "partial",
  "note": "Ids, interval numbers and guard proved for all sequences of calls; the guard is missing outside the loop over the queue, so the id can wrap to 0 there (C49_wrap_false)."
 },
 "C50": {
  "status": "partial",
  "note": "False from the second event on because the table is never cleared (C50_second_event_false, C50_later_particles_false); proved for the first event and for initial nucleons when all events have the same beam momenta."
 },
 "C51": {
  "status": "partial",
  "note": "Proved for mode sampling (all random numbers and hadron lists) and for the Becattini-Ferroni algorithm (both variants) if the drawn numbers are not negative and no class is empty; hadron codes are shown to be unit charged. False otherwise: the rounded normal number of the Bessel sampler can be negative (C51_negative_number_false), a number drawn for an empty class is dropped (C51_empty_class_false). Exact arithmetic: the rounding of the running sum is not modelled."
 },
 "C75": {
  "status": "partial",
  "note": "Common velocity, masses and mass shell proved for all inputs; energy within the tolerance of the search if the invariant mass is within its range. False when the sampled particles are heavier than the invariant mass (C75_heavy_false)."
 },
 "C76": {
  "status": "proved",
  "note": "Accepted quantity lists characterised, binary and text lines, header lines and chunked writing for every converter and buffer size. The printf number formats are a contract (no blank, not empty); the 12-character buffer of %g can be exceeded by values like -1.23457e-300 (finding)."
 },
 "C52": {
  "status": "partial",
  "note": "Reader written from the user guide recovers exactly the documented blocks for every call sequence, for collisions, particles and (with label-free p blocks) initial conditions output; C52_initial_conditions_false: the p blocks of the initial-conditions file lack the documented event and ensemble number."
 },
 "C56": {
  "status": "partial",
  "note": "Integer to integer in full; double to integers of at most 53 bits whatever the undefined conversion gives; C56_double_64_false: for 64-bit targets a saturating conversion defeats the check."
 },
 "C53": {
  "status": "partial",
  "note": "Proved for all lists, all positions, momenta, cross sections and random numbers: which sets of particles are examined (each once), and when exactly a pair or a larger set is proposed, for the three criteria. Missing: with the geometric criterion pairs with |v1-v2|*E1*E2 < 1e-3 never collide although they approach each other (C53_slow_pair_false)."
 },
 "C77": {
  "status": "proved",
  "note": "Real arithmetic; slow pairs (relative momentum below 1e-3 GeV) use the present distance (C77_transverse_slow)."
 },
 "C78": {
  "status": "proved",
  "note": "Real arithmetic."
 },
 "C58": {
  "status": "partial",
  "note": "Proved for all particle lists and times. Backpropagation inverts propagation only for particles that move with their own momentum; with frozen Fermi motion it does not (C58_back_frozen_false). The debug assertions on the sign of dt are not modelled."
 },
 "C60": {
  "status": "partial",
  "note": "Proved for particles moving with their own momentum, |v_z| < 1 and steps that start at t >= 0 or are not longer than the proper time. False otherwise: C60_frozen_false (beam momentum used for the test, own momentum for the point), C60_long_step_false, and a particle exactly on the hypersurface at a step boundary is reported twice (C60_boundary_false)."
 },
 "C79": {
  "status": "partial",
  "note": "The exponential metric uses H = b t instead of the documented b/2 (C79_exponential_false)."
 },
 "C57": {
  "status": "partial",
  "note": "Files are lists of words with converted numbers. C57_created, C57_contents, C57_find and C57_antiparticle prove the property for the first successful load (at most 65535 types, the assertion in the code). C57_second_call_false: a refused second call of create_type_list has already replaced the types."
 },
 "C80": {
  "status": "proved",
  "note": "For the first successful load; C80_names assumes names without the byte 0xE2 that starts the charge suffixes."
 },
 "C55": {
  "status": "partial",
  "note": "Ranges, acceptance conditions and sampling laws of expo, power, cauchy, beta_a0, exponential and beta for every uniform random number (over the reals). Violated: expo calls the uniform distribution with swapped bounds (C55_expo_bounds_false) and never ends on an empty interval; power leaves the interval if it contains zero (C55_power_mixed_false) and is not finite from zero with exponent <= -1; beta_a0 can return 1 (C55_beta_a0_one_false). Rounding is not modelled."
 },
 "C81": {
  "status": "proved",
  "note": "Non-negativity and the exact preimages of every seed, on 32- and 64-bit vectors."
 },
 "C82": {
  "status": "partial",
  "note": "Upper bound for all orders and arguments; lower bound for a^2 <= 4(n+200) (C82_lower_partial); violated at a = 10^6, n = 0 (C82_lower_false). Exact arithmetic."
 },
 "C54": {
  "status": "partial",
  "note": "All sequences of calls on single and numbered files of events that end in a line with ' end ' (C54_single, C54_numbered), files without such lines if they have five lines or a comment (C54_plain_partial), conversion of lines to particles (C54_particles). Violated: a file of at most four uncommented lines is never read (C54_short_plain_false). Operating system errors while reading are not modelled."
 },
 "C83": {
  "status": "partial",
  "note": "All species, masses and vectors over the reals, with NaN as a distinct value. Violated for the sign of the energy: a negative energy is kept if its square is consistent (C83_negative_energy_false). The warnings are not modelled."
 },
 "C84": {
  "status": "proved",
  "note": "All lists of particles, over the reals; printed positions are an arbitrary type with equality."
 },
 "C85": {
  "status": "proved",
  "note": "For hadrons with two or three quarks of the five flavours (Light). Random choices are arguments."
 },
 "C86": {
  "status": "partial",
  "note": "False for the code in one respect: a gluon is overlooked if the first parton is a quark of larger rapidity (C86_gluon_false). Proved: net flavour of the actual hadrons and number of partons for every choice, termination, refusal criterion, flavour neutrality of gluon splitting. Momenta and energies of the event are not modelled."
 },
 "C87": {
  "status": "partial",
  "note": "False for the code: the search for the closest pole mass compares with a signed difference (C87_closest_false). Proved: quantum numbers, existence, the leading hadron, and closeness if no admissible pole mass is above the string mass (C87_closest_partial)."
 },
 "C88": {
  "status": "proved",
  "note": "For every non-empty list of fragments whose total baryon number is that of the string; the list access is then always within bounds."
 },
 "C89": {
  "status": "proved",
  "note": "Over the reals. The azimuthal basis within 1e-8 of the z axis is the exact axis (C89_basis says so); the drawn fractions and transverse momenta are arguments."
 },
 "C90": {
  "status": "partial",
  "note": "False for the code: neutral mesons are mapped to pi+ and neutrinos to positrons (C90_charge_false). Proved: baryon number, numbers of quarks and antiquarks, no opposite charge, neutral baryons to neutral ones."
 },
 "C92": {
  "status": "partial",
  "note": "Velocities, frame conditions and total invariant mass proved for all inputs above threshold; energy options sqrt(s_NN), E_Tot, E_Kin, P_Lab proved consistent. False: sqrt(s_NN) for total energies of two beams (C92_total_energies_false), E_Tot below the mass accepted (C92_below_mass_false); two-beam kinetic energies and momenta inherit the errors shown in C31."
 },
 "C93": {
  "status": "partial",
  "note": "Proved for a moving projectile; with kinetic energy 0 the start time is a division by zero (C93_at_rest_false)."
 },
 "C94": {
  "status": "partial",
  "note": "Quadratic and custom sampling proved; in debug builds the assertion probability < 1 fails at the maximal yield (C94_assertion_false)."
 },
 "C96": {
  "status": "partial",
  "note": "Proved for files with a newline after every line; without it the last line is never used (C96_last_line_false); the label of the nucleus is lost from the second event on (C96_labels_false)."
 },
 "C91": {
  "status": "proved",
  "note": "Proved over the real numbers."
 },
 "C95": {
  "status": "proved",
  "note": "Proved over the real numbers."
 },
 "C97": {
  "status": "proved",
  "note": "Proved over the real numbers."
 },
 "C98": {
  "status": "partial",
  "note": "The reactions offered are exactly the documented table, in every order, and conserve all charges; not for particle tables without protons, where five pions lead to a null dereference (C98_no_protons_false)."
 },
 "C99": {
  "status": "partial",
  "note": "Detailed balance is proved for all four kinds of reactions, and positivity of the phase-space parametrisations. Order independence (C99_order_partial) assumes that the numerically integrated three-body phase space is symmetric in the exchange of the last two masses."
 },
 "C100": {
  "status": "partial",
  "note": "Bounds, stability and conservation hold always. The sum is exact if no decay is judged impossible (C100_total_partial); for two resonances the code subtracts masses twice and loses the whole cross section (C100_two_resonances_false); without any process a final state of 1 mb is printed (C100_no_process_false)."
 },
 "C101": {
  "status": "partial",
  "note": "Proved for energies at least 1e-6 GeV apart; closer ones are added up (C101_close_points_false) and a repeated momentum makes the program stop with an exception (C101_duplicate_false)."
 },
 "C102": {
  "status": "partial",
  "note": "The decision, the locality, the averaging and the exact value of the tabulated overlap integrals are proved. The interpolation in the table uses its two entries the wrong way round, so it is only known to lie between them (C102_between_partial, C102_interpolation_false), and with several ensembles unrelated particles with the number of an incoming one are left out (C102_ensembles_false)."
 },
 "C106": {
  "status": "partial",
  "note": "A time-like eigenvector whose square (at unit Euclidean length) is below 1e-6 is rejected and the laboratory frame returned (C106_fast_frame_false); the solver is a contract with real eigenvalues."
 },
 "C107": {
  "status": "partial",
  "note": "The density derivative is wrong for mixed charges (C107_mixed_derivative_false), the rest density without smearing carries the normalisation of the Gaussian (C107_unsmeared_false); the normalisation is proved for particles at rest; density_factor is a parameter."
 },
 "C108": {
  "status": "partial",
  "note": "Discrete smearing over-counts particles in border cells (C108_border_false); triangular smearing with a range that is no integer does not conserve charge (C108_fractional_range_false)."
 },
 "C109": {
  "status": "partial",
  "note": "Proved for hadrons (C109_hadrons, C109_rare) and, for incoming nuclei, for charge and baryon number, for strangeness if nuclei of equal charge and baryon number have equal strangeness (C109_nuclei_partial). C109_hypertriton_false: with the default particle list p + t -> p + hypertriton violates strangeness. Parametrised cross sections and integrals are oracles."
 },
 "C110": {
  "status": "partial",
  "note": "Strangeness exchange in full; K Delta only below the K N -> K Delta energy cutoff, which the code applies only to the forward reaction (C110_cutoff_false). Parametrised cross sections are oracles."
 },
 "C111": {
  "status": "partial",
  "note": "Order: all pairs. Charge conjugation: hadrons, including N N -> d pi, and the rare pi N -> Y K channels; missing: incoming nuclei."
 },
 "C112": {
  "status": "partial",
  "note": "Proved for pairs other than pion-nucleon without enabled rare channels and with strings chosen by probability; C112_rare_false, C112_unscaled_false and C112_no_single_false show that the sum rule fails in the code for rare channels, with scaled cross sections and thresholds, and that a vanishing single-diffractive cross section gives NaN."
 },
 "C113": {
  "status": "proved",
  "note": "For transition regions of positive width; C113_point_false: an empty transition region gives NaN."
 },
 "C114": {
  "status": "partial",
  "note": "All channels have a weight that is not negative and conserve the quantum numbers, for well-formed nuclei above threshold and a particle list with the Lambda. C114_malformed_false and C114_no_lambda_false are counterexamples outside these hypotheses."
 },
 "C115": {
  "status": "partial",
  "note": "Order: elastic, total, strings, probability. Antiparticles: elastic, total, probability; C115_high_energy_false: the string cross section of pi- pbar differs from that of pi+ p."
 },
 "C116": {
  "status": "proved",
  "note": "formfactors.h in full: general formula for every L from the recursion in the code, range, monotony, zeros, both limits; the form factor of unstable daughters."
 },
 "C117": {
  "status": "partial",
  "note": "All kinds of decays. Violated for decays into two leptons: their width at the pole is below the given one (C117_dilepton_false); the width of tabulated three-body dilepton decays is an arbitrary function."
 },
 "C118": {
  "status": "proved",
  "note": "Integrals in closed form between M^2/b and b and their limits; inverse cumulative distribution of the drawn mass."
 },
 "C119": {
  "status": "partial",
  "note": "Violated if a random number is exactly 0 (C119_pair_false: two masses above the energy) and for energies between the kinematic threshold and the smallest mass (C119_gap_false: uniform distribution with inverted bounds)."
 },
 "C120": {
  "status": "proved",
  "note": "Decision and time of one decay from its random number; the exponential law for any sequence of time steps as a product of Lebesgue measures."
 },
 "C121": {
  "status": "partial",
  "note": "The initial jet is documented to be in the middle of the box but starts in a corner (C121_jet_place_false); everything else holds for every configuration and every random sequence."
 },
 "C122": {
  "status": "partial",
  "note": "With radial flow the momenta before the boost are counted too, so the total momentum is not zero (C122_total_false, exact value in C122_flow_total); radial velocity 1 with exponent 0 is accepted and gives no masses (C122_lightspeed_false). Zero total momentum is proved without flow."
 },
 "C123": {
  "status": "partial",
  "note": "Above m = 50 T no momentum of the massive distribution is found (C123_massive_false), and for m = 6 T the bounds of the two moment distributions are negative (C123_moments_false), so no proposal is rejected. Boltzmann sampling is proved for every mass and temperature, the massive distribution for m up to 50 T, the two moment distributions for massless particles. That the loops end is a matter of probability and not stated."
 },
 "C124": {
  "status": "partial",
  "note": "With thermal multiplicities the tables are empty and an end iterator is dereferenced (C124_thermal_false). Otherwise proved, with the root of the equation of the maximum taken as exact (the program stops at a residual of 1e-8)."
 },
 "C125": {
  "status": "partial",
  "note": "Proved for matter (positive density), for baryons and for nuclei without Lambdas. False for antimatter (C125_antimatter_false: the force of the mirrored surroundings is the same, so antibaryons are pushed the wrong way), for hypernuclei (C125_hypernucleus_false) and for a density dependent symmetry potential where the baryon density is zero or negative (C125_symmetry_false: not a number)."
 },
 "C126": {
  "status": "partial",
  "note": "Proved for matter with the density of the net current. False for antimatter: C126_antimatter_false (the field does not change sign). Mixtures of matter and antimatter, where the code's density is not the one of the net current, are not covered."
 },
 "C127": {
  "status": "proved",
  "note": "For exact real arithmetic; the value at rest is used below 1e-6/fm."
 },
 "C128": {
  "status": "partial",
  "note": "The equation is proved for every current of matter; the size of the found energy only for currents at rest (otherwise the equation is only piecewise continuous). Both signs of the energy solve the equation. False for antimatter: C128_antimatter_false."
 },
 "C129": {
  "status": "partial",
  "note": "False for a symmetry potential alone with a lattice (C129_symmetry_false: never updated, or null pointer) and for a Coulomb potential without a lattice (C129_coulomb_false: null pointer). The warning about the time step and the parallel copies are not modelled."
 },
 "C130": {
  "status": "partial",
  "note": "Directions, sums and the inverse square are proved. False for the size: C130_law_false, the force is 4 pi times Coulomb's law. The sum over cells replaces the integral as in the code."
 },
 "C131": {
  "status": "partial",
  "note": "The GSL is assumed to keep an interval with a change of sign. False for a root at zero (C131_zero_false: the precision is relative) and for two finders at the same time (C131_shared_false: the equation is static)."
 },
 "C132": {
  "status": "partial",
  "note": "Decision and times proved for particles of one time. False: C132_minimum_false (a particle can become fluid before the minimal time; within one step it holds, C132_limits_partial), C132_kernel_false (own contribution computed with (2 pi sigma)^(-3/2), right only for sigma = 1). The energy density is an arbitrary function (lattice and Landau frame are C105-C108 and the lattice properties)."
 },
 "C133": {
  "status": "partial",
  "note": "Inheritance proved for all histories without multi-particle reactions. False: C133_multi_false (products of multi-particle reactions are not fluid), C133_uninitialised (the type of a scattering or decay is read before it is set, so whether core and corona scatter elastically depends on uninitialised memory, C133_garbage)."
 },
 "C134": {
  "status": "partial",
  "note": "Proved for this finder alone (decays of the final stage are other finders). False: C134_forward_false (last collision less than 0.01 fm ago: moved forward; otherwise back, C134_back_partial), C134_formation_false (the formation time set to exclude further actions is overwritten)."
 },
 "C135": {
  "status": "partial",
  "note": "Lines proved. False: C135_same_time_false (only later proper times are refused); C135_accepted says exactly which sequences are accepted. The formatting of the columns is not modelled here."
 },
 "C136": {
  "status": "partial",
  "note": "Proved for time steps of at most 5 fm; false for longer ones (C136_long_steps_false)."
 },
 "C137": {
  "status": "partial",
  "note": "The mean yield of shining during the evolution equals the branching ratio only if lifetimes are drawn from the total width (C137_yield); the code draws them from the hadronic widths (C137_yield_false). Each remaining particle shines once under the condition of C137_once_partial; otherwise resonances shine twice or not at all (C137_once_false)."
 },
 "C138": {
  "status": "proved",
  "note": "Momenta, weight and refusals of the Dalitz decay; the differential width is an arbitrary function whose integral is the width of the mode (C118 for the tabulated one)."
 },
 "C139": {
  "status": "partial",
  "note": "Reactions, momenta and ranges are proved. A reaction at exactly the mass of the outgoing pion counts as possible but throws (C139_open_false); the momentum transfer is the one of the generated momenta only if the pion moves along z (C139_transfer_partial, C139_transfer_false)."
 },
 "C140": {
  "status": "proved",
  "note": "For arbitrary total and differential cross sections; that the analytic differential formulas integrate to the analytic total ones is not modelled. The form factor is taken at the photon energy in the frame of the calculation."
 },
 "C141": {
  "status": "partial",
  "note": "The photon energy generated is k - k^2/(2 sqrt(s)) instead of the drawn k (C141_photon_energy_false); the largest energy is right for equal masses only (C141_energies_false)."
 },
 "C142": {
  "status": "partial",
  "note": "The mean weight is at most the geometric mean of the two integrals (C142_mean_partial) and differs from the cross section already for simple differential cross sections (C142_mean_false); for pi+ pi- the channel drawn is weighted with its own cross section (C142_two_channels_false)."
 },
 "C143": {
  "status": "proved",
  "note": "All analytic parametrizations. The interpolated tables are arbitrary functions: those that are returned without a formula (total cross sections of pions and kaons, K- p elastic above 1.68 GeV, associated production) are outside the statement; smoothing can make such data negative, see C145."
 },
 "C144": {
  "status": "partial",
  "note": "Antinucleons at all energies, two nucleons outside 0.4-0.435 GeV (pp), below 0.525 and 0.8-1 GeV (np) of momentum in the laboratory; false in the first two ranges (C144_pp_false, C144_np_false)."
 },
 "C145": {
  "status": "partial",
  "note": "Refinement proved for delta = 0 and increasing abscissae, the only use; that smoothed positive data stay positive is false (C145_positive_false), data on a line are kept only if the fits are spread (C145_line_partial, C145_line_false). Data with ties or delta > 0 are modelled but not covered by the theorems."
 },
 "C146": {
  "status": "partial",
  "note": "False for rank 0 (C146_rank_zero_false), which the smoother uses only for two points (C145_short covers that case); proved for all other ranks."
 },
 "C147": {
  "status": "partial",
  "note": "Proved for all histories: final entries are the particles present, vertices have the incoming and outgoing particles of the interactions, momentum balance at vertices, beams, errors, codes of ions with two or more nucleons. False for a beam of a single neutron (wrong code) and for the final-state record outside of the collider modus (initial particles have the status of final ones). The library HepMC3 itself (file format) is outside of the repository."
 },
 "C148": {
  "status": "partial",
  "note": "Proved: storage, compilation (every node obeys its rule), nodes, interpolation, outside, file round trip, decision. False: negative densities (undefined conversion to an index), files which end early or have no proper number of nodes (state of the stream is never tested), and the check, which looks at every second node in each direction of the table of the program."
 },
 "C149": {
  "status": "partial",
  "note": "Proved: sums, Boltzmann formulas, monotony, antiparticles, energy and pressure, strangeness neutrality with a sufficient condition for success, exact initial baryon potential. False: energy density vanishes when a single species is suppressed, factor 3 in place of 6 for massless species, search for the strangeness potential fails for an excess of antibaryons, no warning when the solver gets stuck in its first step. Spectral functions (account_for_width), sample_mass_thermal and the bracketing of the initial temperature are not modelled."
 },
 "C150": {
  "status": "partial",
  "note": "Proved for objects with one format, as the program creates them, when all files can be opened and the lattice of the outputs has the dimensions of the lattice of the header. Deviations proved as C150_*_false: the binary header has the cell sizes before the origin contrary to the user guide, a file which cannot be opened is not reported, an object with both formats writes text into the binary file, other density types get the name of the baryonic isospin, names are cut from ten million events. Conversion of numbers to text is not modelled."
 },
 "C151": {
  "status": "partial",
  "note": "Proved for ensembles with at least one particle, fewer than 100000 events and outputs per event on the lattice, and files that can be opened. Not true in general: the particle output of an empty ensemble asks for the time of a particle that does not exist (C151_empty_false), from event or output 100000 the extension of lattice files is cut (C151_extension_false), and the number of a field file counts through all events (C151_fields_counter_false). Words and numbers are tokens; the digits of printed numbers are not modelled."
 },
 "C152": {
  "status": "partial",
  "note": "Proved: events, runs, collisions, initial conditions and saving, with an exact description of what is in the trees. Not true in general: when there are more particles than the buffer of 500000 holds, one particle of every 500001 is not written (C152_lost_false); with several ensembles outputs at the same time have different numbers (C152_ensemble_number_false) and interactions get the number of the last ensemble (C152_interaction_ensemble_false); outputs without particles leave no entry (C152_empty_false); entries of initial conditions have the impact parameter of the event before (C152_initial_impact_false); interactions with more particles than the buffer are undefined (C152_collision_overflow_false). The ROOT library is modelled by its contract."
 },
 "C153": {
  "status": "partial",
  "note": "Proved: the words of 19 enumerations and of the log levels, the four kinds of sets, the round trips and the messages. Not true of the code: the density types charge and strangeness are stored but cannot be read (C153_density_false); four of eight log levels are stored with leading blanks and then rejected (C153_level_false, exact description C153_level_stored); two messages are wrong (C153_spin_message_false, C153_density_message_false); unknown words after All are not noticed (C153_unknown_after_all_false)."
 },
 "C154": {
  "status": "partial",
  "note": "Proved: header, columns, every number of every line as a sum over all particles, runs, and that no output fails for densities without negative charges. Not true of the code: with net densities the current can be space-like and the output throws, leaving a broken line (C154_crash_false, C154_exception); the Eckart density depends on the smearing option (C154_smearing_eckart_false). Decimals cut off by the printf formats are not modelled."
 },
 "C155": {
  "status": "partial",
  "note": "Proved for every file: scatterings, decays, box, list and the densities get the value in the file or the default. Not true of the code: the sphere and the nuclei always see spin interactions off (C155_sphere_spin_false, C155_collider_spin_false), the back-to-back antiparticle is forgotten (C155_jet_antiparticle_false) and the header of thermodynamics.dat never mentions participants (C155_header_false)."
 },
 "C156": {
  "status": "partial",
  "note": "Acceptance and distinctness are proved with the option Extended of dileptons, photons and initial conditions equal to the one of the collisions and without the pair HepMC and HepMC_asciiv3; without these the claim is false (C156_hepmc_false, C156_binary_false, C156_refused_false). The set of outputs, their order and files are proved without restriction."
 },
 "C157": {
  "status": "partial",
  "note": "false for discrete and triangular smearing at high energies (C157_overflow_false) and for zero sizes (C157_zero_size_false); proved otherwise"
 },
 "C158": {
  "status": "partial",
  "note": "false for the density, energy and fields of potentials and for two configurations with null pointers (C158_*_false); proved for everything else, and what is printed instead is characterised"
 },
 "C159": {
  "status": "partial",
  "note": "false in seven ways (C159_*_false): Pauli blocking, twins, neighbours, core particles, errors after changes, early interactions, kaons; proved otherwise"
 },
 "C160": {
  "status": "partial",
  "note": "All but the text of -e: C160_endtime_partial proves the shortcut for end times that are numbers, C160_endtime_false shows the sign is dropped and texts that are no numbers give 0."
 },
 "C161": {
  "status": "partial",
  "note": "Everything is proved that holds; the violated parts have _false theorems: emptiness of the directory, -r ignoring lock and results, tabulations with a slash at the end, and the missing exception when all run numbers are used."
 },
 "C162": {
  "status": "partial",
  "note": "The reproduction is proved for the whole simulated configuration; C162_logging_false shows that the copy lacks the section about logging."
 },
 "C163": {
  "status": "partial",
  "note": "Proved: the density is the documented one with the spherical harmonics of an independent specification (Legendre polynomials), the mean of the radius over the sphere, acceptance of the section iff documented, the parameters in use, normalisation for automatic deformation, law of the accepted positions, Euler rotation as product of three rotations. Not true of the code, with witnesses: the sampled range R/d + R d cuts the nucleus for some parameters, a given saturation density is overwritten for automatic deformation, manual deformation keeps the saturation density of the sphere, and the Fermi momenta of a rotated nucleus use the density of the unrotated one."
 },
 "C164": {
  "status": "partial",
  "note": "Proved with exact integrals and a root finder that is any transition system with a position: the substituted integral is the density of an ideal gas, strict monotony, existence and uniqueness of the chemical potential (bosons up to the critical density), exactly which values are returned and which errors are reported, bracketing by the tolerance, no result for a condensate beyond the tolerance, soundness of the search for the maximum. Not true of the code, with witnesses: the precision is absolute, so a dilute gas may get a density wrong by any factor; a root finder that does not converge leaves 0 as the result, for the chemical potential (accepted if the density is within 0.001 per fm³) and for the momentum of the maximum (momenta are then uniform up to 10 GeV)."
 },
 "C165": {
  "status": "partial",
  "note": "Ideal fluid decomposition, bounds, threshold, convergence, accuracy and uniqueness proved; the charge density is not transformed to the rest frame (C165_charge_false)."
 },
 "C166": {
  "status": "partial",
  "note": "Removal rule, cells, choice with its probability, positions and momenta proved; a random number 0 reads index -1 (C166_zero_false) and mode sampling ignores the chemical potential of the charge (C166_mode_false)."
 },
 "C167": {
  "status": "partial",
  "note": "Law of one round proved when the envelope covers the ratio; C167_law_false: a narrow peak missed by the search is never returned in the first round. The Bessel function and the spectral function are parameters."
 },
 "C168": {
  "status": "partial",
  "note": "Conservation laws, mass shells, choice of the function and the ends of a remaining string with enough transverse mass are proved; the ends fail when the transverse masses of the ends exceed that of the string (C168_ends_false). The contract of PYTHIA (a hadron combined from two flavours has their sum) is a hypothesis of the flavour part."
 },
 "C169": {
  "status": "partial",
  "note": "Proved for hadrons that do not all have the same rapidity; for equal rapidities the transverse momentum is lost (C169_rest_false)."
 },
 "C170": {
  "status": "proved",
  "note": "Codes with a top quark are outside the hypotheses (the code counts five flavours only); the fragmentation is an oracle."
 },
 "C171": {
  "status": "proved",
  "note": "Tolerances of the comparison as in C59; rounding of the sums is not modelled."
 },
 "C172": {
  "status": "proved",
  "note": "The spline of GSL is an oracle with its documented contract; the tabulated numbers are not in the model."
 },
 "C173": {
  "status": "partial",
  "note": "False for negative integrals whose error meets the relative precision only (C173_returned_false); everything else is proved."
 },
 "C174": {
  "status": "partial",
  "note": "the search need not end for inconsistent colours (C174_ends_false)"
 },
 "C175": {
  "status": "partial",
  "note": "heavier partons are not refused: the loop does not end (C175_heavy_false)"
 },
 "C176": {
  "status": "partial",
  "note": "energy restored only if the replacement changes it (C176_energy_false); a gluon may be missed (C176_gluon_false)"
 },
 "C177": {
  "status": "partial",
  "note": "decays into three particles lose the third (C177_decays_false)"
 },
 "C178": {
  "status": "partial",
  "note": "all parts proved except that a success of the last of the 10000 attempts is discarded (C178_last_false); conservation in the fragmentation of a string is a hypothesis (see C168, C169)"
 },
 "C179": {
  "status": "partial",
  "note": "Proved: restoration for all nestings and control flows, silence of guards without mask, exact traps of masks, set-up. C179_keep_false and C179_nested_false: masks enable traps that were off before."
 },
 "C180": {
  "status": "partial",
  "note": "Proved: levels, names, errors and used keys of the set-up for every configuration, what is printed. C180_written_false: four of the eight levels cannot be read back after SMASH wrote them."
 },
 "C181": {
  "status": "partial",
  "note": "All branches, ranges, symmetry and conservation proved. C181_transfer_partial leaves out incoming momenta with a transverse part that is non-zero but below 1e-6 GeV. C181_lab_false and C181_threshold_false show that the code does not do what is documented for the lab momentum of other elastic pairs and at threshold."
 },
 "C182": {
  "status": "partial",
  "note": "Counter, bounds, layout and the number shown proved; correct for counts whose number of digits is not 1, 4, 7, ...; C182_leading_false and C182_empty_false show that the others are printed wrongly."
 },
 "C183": {
  "status": "partial",
  "note": "Squared spin vectors, fresh spin vectors and the switched-off case proved for all processes; C183_lambda_false (the spin of a Lambda is never handed to a Sigma*) and C183_orthogonal_false (orthogonality lost in elastic collisions) show that the rest of the property does not hold."
 },
 "C184": {
  "status": "partial",
  "note": "Crash points, complete runs, the order of the calls of Rivet and its set-up proved; C184_exception_false, C184_rivet_empty_false and C184_comma_false show where the code does not do what is expected."
 },
 "C185": {
  "status": "proved",
  "note": "The loop over the event, the strings and the acceptance for all records and results of PYTHIA; order of hadrons within a string and formation times are not modelled here. Code violates the warning 'start over': C185_unknown_false."
 },
 "C186": {
  "status": "partial",
  "note": "Balance and absence of the exception are proved for all histories in which decays of stable particles and changes from outside conserve energy and potentials do not affect thresholds; false otherwise (C186_outside_false). Energies are exact. Warnings and counters for all histories, C186_discarded_false for the share of discarded interactions."
 },
 "C187": {
  "status": "proved",
  "note": "All cases of diff_width over exact reals; partial widths and form factors are arbitrary non-negative parameters. C187_light_false: no check at the lower end, callers stay above."
 }
}