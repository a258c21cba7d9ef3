{
 "claims": [
  {
   "property": "C01",
   "status": "proved",
   "theorems": [
    "Verif.Particles.C01_ids_unique",
    "Verif.Particles.C01_ids_fresh"
   ],
   "note": ""
  },
  {
   "property": "C02",
   "status": "proved",
   "theorems": [
    "Verif.Particles.C02_contents"
   ],
   "note": ""
  },
  {
   "property": "C03",
   "status": "proved",
   "theorems": [
    "Verif.Particles.C03_no_fault",
    "Verif.Particles.C03_iteration_in_bounds"
   ],
   "note": "Asserts and array bounds; 32-bit overflow excluded while fewer than 2^29 ids are in use."
  },
  {
   "property": "C04",
   "status": "proved",
   "theorems": [
    "Verif.Particles.C04_valid_iff",
    "Verif.Particles.C04_rejected_for_ever",
    "Verif.Particles.C04_reset_revives"
   ],
   "note": "Up to the next reset(), as stated; C04_reset_revives shows the restriction is needed."
  },
  {
   "property": "C05",
   "status": "proved",
   "theorems": [
    "Verif.Particles.C05_replace"
   ],
   "note": ""
  },
  {
   "property": "C06",
   "status": "partial",
   "theorems": [
    "Verif.Particles.C06_is_empty_false",
    "Verif.Particles.C06_is_empty_partial"
   ],
   "note": "The property is false for the code: C06_is_empty_false gives a history after which size() is 0 and is_empty() is false. Proved: is_empty() implies that there is no particle."
  },
  {
   "property": "C07",
   "status": "proved",
   "theorems": [
    "Verif.Actions.C07_pop_is_earliest",
    "Verif.Actions.C07_pop_throws_iff_empty",
    "Verif.Actions.C07_earliest_time",
    "Verif.Actions.C07_nothing_lost",
    "Verif.Actions.C07_drain_sorted"
   ],
   "note": ""
  },
  {
   "property": "C08",
   "status": "proved",
   "theorems": [
    "Verif.Clock.C08_times",
    "Verif.Clock.C08_monotone",
    "Verif.Clock.C08_reaches_end",
    "Verif.Clock.C08_durations_sum",
    "Verif.Clock.C08_tiny_step_stalls"
   ],
   "note": "For times within 10^12 fm and steps of at least half the clock resolution (C08_tiny_step_stalls shows the latter is needed)."
  },
  {
   "property": "C09",
   "status": "partial",
   "theorems": [
    "Verif.Clock.C09_tick_partial",
    "Verif.Clock.C09_advance_partial",
    "Verif.Clock.C09_next_time_partial",
    "Verif.Clock.C09_next_time_overflows",
    "Verif.Clock.C09_advance_by_overflows",
    "Verif.Clock.C09_negative_advance_overflows"
   ],
   "note": "False for the code: the overflow test of next_time() itself overflows, += of a duration is unchecked and += of a negative number overflows in its guard (witness theorems). Proved: ++ and += of a non-negative number are exact or throw; next_time() is exact or throws while the elapsed ticks fit in 64 bits."
  },
  {
   "property": "C10",
   "status": "proved",
   "theorems": [
    "Verif.Clock.C10_sorted",
    "Verif.Clock.C10_visits_in_order"
   ],
   "note": ""
  },
  {
   "property": "C11",
   "status": "proved",
   "theorems": [
    "Verif.Grid.C11_each_particle_in_one_cell",
    "Verif.Grid.C11_cell_contains_position",
    "Verif.Grid.C11_normal_never_out_of_bounds",
    "Verif.Grid.C11_cell_count_overflows"
   ],
   "note": "For every box and particle list; C11_cell_count_overflows shows that without a cell limit the int cell count can overflow. With Normal boundaries and the Largest strategy unformed particles are not filtered out."
  },
  {
   "property": "C12",
   "status": "proved",
   "theorems": [
    "Verif.Grid.C12_pairs_exactly_once",
    "Verif.Grid.C12_calls_in_bounds"
   ],
   "note": "Every pair closer than the interaction length is offered exactly once, no others twice."
  },
  {
   "property": "C13",
   "status": "partial",
   "theorems": [
    "Verif.Grid.C13_pairs_exactly_once",
    "Verif.Grid.C13_image_unique",
    "Verif.Grid.C13_calls_in_bounds",
    "Verif.Grid.C13_largest_cells_miss_pair"
   ],
   "note": "Proved for the optimal strategy and for boxes of at least twice the interaction length, with a relative margin for the nextafter correction. C13_largest_cells_miss_pair shows the property fails for the Largest strategy in a box narrower than the interaction length."
  },
  {
   "property": "C14",
   "status": "partial",
   "theorems": [
    "Verif.Pdg.C14_round_trip_int",
    "Verif.Pdg.C14_round_trip_uint",
    "Verif.Pdg.C14_round_trip_string_partial",
    "Verif.Pdg.C14_distinct_partial",
    "Verif.Pdg.C14_parsers_agree_partial",
    "Verif.Pdg.C14_hex_collision",
    "Verif.Pdg.C14_hex_unreadable"
   ],
   "note": "Proved for every code made from an integer and for every decimal string; false for strings with hexadecimal digits in n, n_R, n_L (C14_hex_collision, C14_hex_unreadable)."
  },
  {
   "property": "C15",
   "status": "partial",
   "theorems": [
    "Verif.Pdg.C15_involution",
    "Verif.Pdg.C15_opposite",
    "Verif.Pdg.C15_neutral_partial",
    "Verif.Pdg.C15_W_is_charged",
    "Verif.Pdg.C15_opposite_number_partial",
    "Verif.Pdg.C15_kaon_has_no_negative"
   ],
   "note": "Involution, opposite quantum numbers, neutrality of self-conjugate codes and acceptance of the negated number proved; exceptions exhibited: W+ (charged, no antiparticle) and K0_L/K0_S (has_antiparticle but negative code rejected)."
  },
  {
   "property": "C16",
   "status": "proved",
   "theorems": [
    "Verif.Pdg.C16_valence",
    "Verif.Pdg.C16_gell_mann_nishijima",
    "Verif.Pdg.C16_nucleus"
   ],
   "note": "For hadrons with quark digits 0..6 (all that the constructors accept) and for nuclei; digit table checked completely in the kernel."
  },
  {
   "property": "C17",
   "status": "partial",
   "theorems": [
    "Verif.Pdg.C17_accepts_only_numbers",
    "Verif.Pdg.C17_same_number_partial",
    "Verif.Pdg.C17_wraps",
    "Verif.Pdg.C17_nucleus_wraps",
    "Verif.Pdg.C17_from_decimal_boundary"
   ],
   "note": "Accepted strings are optional sign and hexadecimal digits; the parsed number is the written one for decimal strings except when the 8th digit wraps (C17_wraps) or nucleus fields overflow (C17_nucleus_wraps)."
  },
  {
   "property": "C18",
   "status": "proved",
   "theorems": [
    "Verif.Lattice.C18_index_bijection",
    "Verif.Lattice.C18_neighbours",
    "Verif.Lattice.C18_opposite_steps"
   ],
   "note": "Full statement, for every lattice the constructor makes."
  },
  {
   "property": "C19",
   "status": "partial",
   "theorems": [
    "Verif.Lattice.C19_rectangle",
    "Verif.Lattice.C19_cube",
    "Verif.Lattice.C19_rectangle_periodic_partial",
    "Verif.Lattice.C19_far_cube"
   ],
   "note": "Non-periodic lattices: complete. Periodic lattices: complete up to 256 periods on the negative side, beyond that false (C19_far_cube)."
  },
  {
   "property": "C20",
   "status": "proved",
   "theorems": [
    "Verif.Lattice.C20_affine",
    "Verif.Lattice.C20_periodic",
    "Verif.Lattice.C20_rejects",
    "Verif.Lattice.C20_four_gradient"
   ],
   "note": "Scalar and four-vector gradients, periodic and not; exact arithmetic."
  },
  {
   "property": "C21",
   "status": "partial",
   "theorems": [
    "Verif.Lattice.C21_resize_partial",
    "Verif.Lattice.C21_new_cells_break_storage"
   ],
   "note": "Holds without new cell numbers; false with new cell numbers (C21_new_cells_break_storage): the storage is not resized."
  },
  {
   "property": "C22",
   "status": "proved",
   "theorems": [
    "Verif.Box.C22_enforce",
    "Verif.Box.C22_impose",
    "Verif.Box.C22_far_outside"
   ],
   "note": "Double arithmetic is exact (rationals); C22_far_outside shows what happens to coordinates more than one box length outside."
  },
  {
   "property": "C23",
   "status": "partial",
   "theorems": [
    "Verif.Box.C23_wall_crossing_partial",
    "Verif.Box.C23_one_per_particle",
    "Verif.Box.C23_slow_particle"
   ],
   "note": "Proved for particles faster than 1e-6 in the crossing direction; slower ones are never given a wall crossing (C23_slow_particle)."
  },
  {
   "property": "C24",
   "status": "proved",
   "theorems": [
    "Verif.Sha.C24_chunks",
    "Verif.Sha.C24_calculate",
    "Verif.Sha.C24_round_constants",
    "Verif.Sha.C24_initial_value",
    "Verif.Sha.C24_primes",
    "Verif.Sha.C24_hex"
   ],
   "note": "Against FIPS 180-4 written separately; message length modulo 2^64 bits as in the standard's limit."
  },
  {
   "property": "C25",
   "status": "proved",
   "theorems": [
    "Verif.Files.C25_exclusive",
    "Verif.Files.C25_acquire_result",
    "Verif.Files.C25_acquire_twice",
    "Verif.Files.C25_only_owner_removes",
    "Verif.Files.C25_owner_removes",
    "Verif.Files.C25_crash"
   ],
   "note": "Lock files are touched by FileLock objects only and remove() succeeds; copying a FileLock object (possible in C++) is not modelled."
  },
  {
   "property": "C26",
   "status": "partial",
   "theorems": [
    "Verif.Files.C26_final_name_complete_partial",
    "Verif.Files.C26_destructor",
    "Verif.Files.C26_not_before_destructor",
    "Verif.Files.C26_io_error"
   ],
   "note": "The file under the final name is complete if every write succeeds; a failing fclose is ignored and an incomplete file gets the final name (C26_io_error)."
  },
  {
   "property": "C27",
   "status": "partial",
   "theorems": [
    "Verif.Text.C27_trim",
    "Verif.Text.C27_trim_idempotent",
    "Verif.Text.C27_remove_substr",
    "Verif.Text.C27_remove_empty",
    "Verif.Text.C27_split",
    "Verif.Text.C27_split_covers",
    "Verif.Text.C27_join",
    "Verif.Text.C27_split_join",
    "Verif.Text.C27_join_split",
    "Verif.Text.C27_join_drops_empty",
    "Verif.Text.C27_fill_partial",
    "Verif.Text.C27_fill_too_wide",
    "Verif.Text.C27_fill_both",
    "Verif.Text.C27_columns"
   ],
   "note": "fill_left/right/both throw when the text is wider than the field (C27_fill_too_wide); remove_substr with an empty pattern does not terminate (C27_remove_empty)."
  },
  {
   "property": "C28",
   "status": "partial",
   "theorems": [
    "Verif.Text.C28_lines",
    "Verif.Text.C28_meaningful_partial",
    "Verif.Text.C28_carriage_return"
   ],
   "note": "Holds for files with Unix line ends; with CRLF line ends blank lines are returned (C28_carriage_return)."
  },
  {
   "property": "C29",
   "status": "proved",
   "theorems": [
    "Verif.Kin.C29_isometry",
    "Verif.Kin.C29_inverse",
    "Verif.Kin.C29_rest",
    "Verif.Kin.C29_linear",
    "Verif.Kin.C29_not_subluminal"
   ],
   "note": "Real arithmetic in place of doubles; velocities of size 1 or more give no boost (C29_not_subluminal)."
  },
  {
   "property": "C30",
   "status": "partial",
   "theorems": [
    "Verif.Kin.C30_symmetric",
    "Verif.Kin.C30_energy_balance",
    "Verif.Kin.C30_unique",
    "Verif.Kin.C30_below_partial",
    "Verif.Kin.C30_far_below"
   ],
   "note": "Below |ma-mb| the function returns a positive momentum (C30_far_below), so 'zero below threshold' is proved only from |ma-mb| on."
  },
  {
   "property": "C31",
   "status": "partial",
   "theorems": [
    "Verif.Kin.C31_fixed_target",
    "Verif.Kin.C31_two_beams",
    "Verif.Kin.C31_Ekin_two_beams_partial",
    "Verif.Kin.C31_Ekin_two_beams_wrong",
    "Verif.Kin.C31_plab_two_beams_value",
    "Verif.Kin.C31_plab_two_beams_partial",
    "Verif.Kin.C31_plab_two_beams_wrong",
    "Verif.Kin.C31_plab_inverse",
    "Verif.Kin.C31_s_inverse"
   ],
   "note": "Fixed target and two-beam total energies are right; s_from_Ekin for two beams is right for equal masses only and s_from_plab for two beams is wrong unless |m1-m2| = |p1-p2| (counterexamples proved)."
  },
  {
   "property": "C32",
   "status": "proved",
   "theorems": [
    "Verif.Act.C32_never_fails",
    "Verif.Act.C32_kept",
    "Verif.Act.C32_probability",
    "Verif.Act.C32_rescaled"
   ],
   "note": "any rounded addition that is monotone; the measure statement is for real weights"
  },
  {
   "property": "C33",
   "status": "proved",
   "theorems": [
    "Verif.Act.C33_check",
    "Verif.Act.C33_violation"
   ],
   "note": "momenta are exact numbers or NaN; the tolerance of operator== is part of the model"
  },
  {
   "property": "C34",
   "status": "proved",
   "theorems": [
    "Verif.Act.C34_two_body",
    "Verif.Act.C34_many_body",
    "Verif.Act.C34_to_lab"
   ],
   "note": "real arithmetic; positive masses; the rejection loop is represented by the accepted random numbers"
  },
  {
   "property": "C35",
   "status": "proved",
   "theorems": [
    "Verif.Act.C35_history",
    "Verif.Act.C35_decay",
    "Verif.Act.C35_defined",
    "Verif.Act.C35_replace"
   ],
   "note": "set_history and perform; FailedString products keep the parents they had"
  },
  {
   "property": "C36",
   "status": "proved",
   "theorems": [
    "Verif.Act.C36_range",
    "Verif.Act.C36_monotone",
    "Verif.Act.C36_ends"
   ],
   "note": "real arithmetic, real power"
  },
  {
   "property": "C37",
   "status": "proved",
   "theorems": [
    "Verif.Decay.C37_loaded",
    "Verif.Decay.C37_merge",
    "Verif.Decay.C37_add_mode_defined",
    "Verif.Decay.C37_add_mode_rejects",
    "Verif.Decay.C37_renormalize"
   ],
   "note": "merging for every history of add_mode, normalisation for every list, and for every whole file with consistent multiplets"
  },
  {
   "property": "C38",
   "status": "partial",
   "theorems": [
    "Verif.Decay.C38_line",
    "Verif.Decay.C38_three_multiplets_wrong",
    "Verif.Decay.C38_accepted_couples",
    "Verif.Decay.C38_couples_accepted_partial",
    "Verif.Decay.C38_half_integer",
    "Verif.Decay.C38_rejects_allowed",
    "Verif.Decay.C38_three_accepted_couples",
    "Verif.Decay.C38_three_couples_accepted_partial"
   ],
   "note": "accepted two-body and three-body (given states) decays are couplable; the converse holds unless the spins lie strictly inside the triangle; C38_rejects_allowed and C38_three_multiplets_wrong refute the full statement"
  },
  {
   "property": "C39",
   "status": "proved",
   "theorems": [
    "Verif.Cg.C39_table",
    "Verif.Cg.C39_complete",
    "Verif.Cg.C39_no_duplicates",
    "Verif.Cg.C39_hash_injective",
    "Verif.Cg.C39_memo",
    "Verif.Cg.C39_calculate",
    "Verif.Cg.C39_three_body_unique",
    "Verif.Cg.C39_total_isospins",
    "Verif.Cg.C39_reversible",
    "Verif.Cg.C39_odd_range_diverges"
   ],
   "note": "The 189 literals of the table are checked against Racah's formula (values to 1e-15), completeness for isospins up to 3/2, distinct keys, injective hash; memoised look-up over every history of calls; calculated values given an exact 3j symbol (GSL is not modelled); uniqueness test of the three-body coupling, total isospin range and reversibility."
  },
  {
   "property": "C40",
   "status": "partial",
   "theorems": [
    "Verif.Config.C40_history",
    "Verif.Config.C40_value",
    "Verif.Config.C40_absent",
    "Verif.Config.C40_twice_partial",
    "Verif.Config.C40_destructor",
    "Verif.Config.C40_twice_with_default",
    "Verif.Config.C40_empty_key_lost",
    "Verif.Config.C40_repeated_key",
    "Verif.Config.C40_below_sequence"
   ],
   "note": "Exact set of remaining keys after every history, returned values, emptiness and destructor for all well-formed trees (no repeated keys, no empty key). The claim fails for take(key, default), which returns the default for a key taken before (C40_twice_with_default), for the empty key (C40_empty_key_lost) and for repeated keys (C40_repeated_key); has_value throws below a sequence."
  },
  {
   "property": "C41",
   "status": "proved",
   "theorems": [
    "Verif.Config.C41_merge",
    "Verif.Config.C41_override",
    "Verif.Config.C41_empty_map",
    "Verif.Config.C41_empty_text",
    "Verif.Config.C41_sequence_section"
   ],
   "note": "Exact set of keys after merging, or exception, for texts without empty sections that do not use a sequence as a section; the behaviour of an empty text, an empty map and a sequence used as a section is stated separately."
  },
  {
   "property": "C42",
   "status": "partial",
   "theorems": [
    "Verif.Tab.C42_between",
    "Verif.Tab.C42_grid_point",
    "Verif.Tab.C42_bounds",
    "Verif.Tab.C42_below",
    "Verif.Tab.C42_above_partial",
    "Verif.Tab.C42_far_ub",
    "Verif.Tab.C42_step_partial",
    "Verif.Tab.C42_few",
    "Verif.Tab.C42_empty_ub"
   ],
   "note": "Everything for exact arithmetic and all arguments up to 2^64 (linear) or 2^32 (step) grid steps; beyond, the conversion to an integer is undefined behaviour (C42_far_ub, third part of C42_step_partial)."
  },
  {
   "property": "C43",
   "status": "proved",
   "theorems": [
    "Verif.Tab.C43_roundtrip",
    "Verif.Tab.C43_truncated",
    "Verif.Tab.C43_history"
   ],
   "note": "Round trip bit by bit, other hashes give the empty table, and every history of calls on a cache directory uses the right table. A truncated file with the right hash is accepted (C43_truncated): the stream state is never checked."
  },
  {
   "property": "C44",
   "status": "proved",
   "theorems": [
    "Verif.Tab.C44_average",
    "Verif.Tab.C44_dedup",
    "Verif.Tab.C44_dedup_sorted"
   ],
   "note": "For exact arithmetic and fewer than 2^64 values."
  },
  {
   "property": "C45",
   "status": "proved",
   "theorems": [
    "Verif.Tab.C45_duplicates",
    "Verif.Tab.C45_between",
    "Verif.Tab.C45_points",
    "Verif.Tab.C45_defined",
    "Verif.Tab.C45_no_points"
   ],
   "note": "For exact arithmetic; std::sort and std::lower_bound by contract. With a single point every evaluation reads outside the vector (C45_defined)."
  },
  {
   "property": "C46",
   "status": "proved",
   "theorems": [
    "Verif.Exp.C46_timestep",
    "Verif.Exp.C46_event"
   ],
   "note": "Loop over the queue, timesteps and output times of one ensemble, for every particle list, heap implementation, every outcome of the attempted actions and every set of newly found actions. Assumed of the rest of the program (structure Fair): performing an action leaves all particles at its time, searches find no action before the time of the particles, potentials and expansion keep the times."
  },
  {
   "property": "C47",
   "status": "partial",
   "theorems": [
    "Verif.Exp.C47_uniform",
    "Verif.Exp.C47_timestep_independent",
    "Verif.Exp.C47_custom",
    "Verif.Exp.C47_two_calls_false",
    "Verif.Exp.C47_second_event_false",
    "Verif.Exp.C47_final_label_false"
   ],
   "note": "Proved for one call of run_time_evolution to the end, uniform interval and list of times, times rounded to the clock resolution. False for several calls per event (C47_two_calls_false), for a list of times in a later event with an earlier start (C47_second_event_false); the label of the final output is wrong with a list of times (C47_final_label_false)."
  },
  {
   "property": "C48",
   "status": "proved",
   "theorems": [
    "Verif.Exp.C48_fixed",
    "Verif.Exp.C48_minimum",
    "Verif.Exp.C48_max_events"
   ],
   "note": "Event loop, all outcomes; the counters are unbounded integers in the model."
  },
  {
   "property": "C49",
   "status": "partial",
   "theorems": [
    "Verif.Exp.C49_ids",
    "Verif.Exp.C49_ids_unique",
    "Verif.Exp.C49_guard",
    "Verif.Exp.C49_intervals",
    "Verif.Exp.C49_wrap_false"
   ],
   "note": "Ids, interval numbers and guard proved for all sequences of calls; the guard is missing outside the loop over the queue, so the id can wrap to 0 there (C49_wrap_false)."
  },
  {
   "property": "C50",
   "status": "partial",
   "theorems": [
    "Verif.Exp.C50_first_event_partial",
    "Verif.Exp.C50_same_beam_partial",
    "Verif.Exp.C50_second_event_false",
    "Verif.Exp.C50_later_particles_false"
   ],
   "note": "False from the second event on because the table is never cleared (C50_second_event_false, C50_later_particles_false); proved for the first event and for initial nucleons when all events have the same beam momenta."
  },
  {
   "property": "C51",
   "status": "partial",
   "theorems": [
    "Verif.Therm.C51_bf_partial",
    "Verif.Therm.C51_bf_ends",
    "Verif.Therm.C51_hadrons_unit",
    "Verif.Therm.C51_negative_number_false",
    "Verif.Therm.C51_empty_class_false",
    "Verif.Therm.C51_mode"
   ],
   "note": "Proved for mode sampling (all random numbers and hadron lists) and for the Becattini-Ferroni algorithm (both variants) if the drawn numbers are not negative and no class is empty; hadron codes are shown to be unit charged. False otherwise: the rounded normal number of the Bessel sampler can be negative (C51_negative_number_false), a number drawn for an empty class is dropped (C51_empty_class_false). Exact arithmetic: the rounding of the running sum is not modelled."
  },
  {
   "property": "C52",
   "status": "partial",
   "theorems": [
    "Verif.Bin.C52_readable",
    "Verif.Bin.C52_throws",
    "Verif.Bin.C52_initial_conditions_false"
   ],
   "note": "Reader written from the user guide recovers exactly the documented blocks for every call sequence, for collisions, particles and (with label-free p blocks) initial conditions output; C52_initial_conditions_false: the p blocks of the initial-conditions file lack the documented event and ensemble number."
  },
  {
   "property": "C53",
   "status": "partial",
   "theorems": [
    "Verif.Scat.C53_geometric_time",
    "Verif.Scat.C53_slow_pair_false",
    "Verif.Scat.C53_candidates",
    "Verif.Scat.C53_cell",
    "Verif.Scat.C53_neighbors",
    "Verif.Scat.C53_surrounding",
    "Verif.Scat.C53_moving_momentum",
    "Verif.Scat.C53_geometric",
    "Verif.Scat.C53_covariant",
    "Verif.Scat.C53_stochastic",
    "Verif.Scat.C53_multi"
   ],
   "note": "Proved for all lists, all positions, momenta, cross sections and random numbers: which sets of particles are examined (each once), and when exactly a pair or a larger set is proposed, for the three criteria. Missing: with the geometric criterion pairs with |v1-v2|*E1*E2 < 1e-3 never collide although they approach each other (C53_slow_pair_false)."
  },
  {
   "property": "C54",
   "status": "partial",
   "theorems": [
    "Verif.Lst.C54_single",
    "Verif.Lst.C54_numbered",
    "Verif.Lst.C54_plain_partial",
    "Verif.Lst.C54_short_plain_false",
    "Verif.Lst.C54_particles"
   ],
   "note": "All sequences of calls on single and numbered files of events that end in a line with ' end ' (C54_single, C54_numbered), files without such lines if they have five lines or a comment (C54_plain_partial), conversion of lines to particles (C54_particles). Violated: a file of at most four uncommented lines is never read (C54_short_plain_false). Operating system errors while reading are not modelled."
  },
  {
   "property": "C55",
   "status": "partial",
   "theorems": [
    "Verif.Rand.C55_expo_range",
    "Verif.Rand.C55_expo_accepts",
    "Verif.Rand.C55_expo_empty_false",
    "Verif.Rand.C55_expo_bounds_false",
    "Verif.Rand.C55_power",
    "Verif.Rand.C55_power_law",
    "Verif.Rand.C55_power_mixed_false",
    "Verif.Rand.C55_power_zero_false",
    "Verif.Rand.C55_cauchy",
    "Verif.Rand.C55_cauchy_zero_width",
    "Verif.Rand.C55_beta_a0_accepts",
    "Verif.Rand.C55_beta_a0_range",
    "Verif.Rand.C55_beta_a0_one_false",
    "Verif.Rand.C55_beta_a0_nonpos",
    "Verif.Rand.C55_exponential",
    "Verif.Rand.C55_beta"
   ],
   "note": "Ranges, acceptance conditions and sampling laws of expo, power, cauchy, beta_a0, exponential and beta for every uniform random number (over the reals). Violated: expo calls the uniform distribution with swapped bounds (C55_expo_bounds_false) and never ends on an empty interval; power leaves the interval if it contains zero (C55_power_mixed_false) and is not finite from zero with exponent <= -1; beta_a0 can return 1 (C55_beta_a0_one_false). Rounding is not modelled."
  },
  {
   "property": "C56",
   "status": "partial",
   "theorems": [
    "Verif.Cast.C56_exact_or_rejected",
    "Verif.Cast.C56_never_changes",
    "Verif.Cast.C56_double",
    "Verif.Cast.C56_double_64_false"
   ],
   "note": "Integer to integer in full; double to integers of at most 53 bits whatever the undefined conversion gives; C56_double_64_false: for 64-bit targets a saturating conversion defeats the check."
  },
  {
   "property": "C57",
   "status": "partial",
   "theorems": [
    "Verif.Types.C57_created",
    "Verif.Types.C57_contents",
    "Verif.Types.C57_find",
    "Verif.Types.C57_antiparticle",
    "Verif.Types.C57_second_call_false"
   ],
   "note": "Files are lists of words with converted numbers. C57_created, C57_contents, C57_find and C57_antiparticle prove the property for the first successful load (at most 65535 types, the assertion in the code). C57_second_call_false: a refused second call of create_type_list has already replaced the types."
  },
  {
   "property": "C58",
   "status": "partial",
   "theorems": [
    "Verif.Stream.C58_straight",
    "Verif.Stream.C58_steps",
    "Verif.Stream.C58_back",
    "Verif.Stream.C58_back_forward",
    "Verif.Stream.C58_back_frozen_false",
    "Verif.Stream.C58_returned"
   ],
   "note": "Proved for all particle lists and times. Backpropagation inverts propagation only for particles that move with their own momentum; with frozen Fermi motion it does not (C58_back_frozen_false). The debug assertions on the sign of dt are not modelled."
  },
  {
   "property": "C59",
   "status": "partial",
   "theorems": [
    "Verif.Kin.C59_lt",
    "Verif.Kin.C59_le_partial",
    "Verif.Kin.C59_le_wrong",
    "Verif.Kin.C59_eq_symm",
    "Verif.Kin.C59_eq_refl",
    "Verif.Kin.C59_eq_meaning",
    "Verif.Kin.C59_eq_not_transitive"
   ],
   "note": "<, > and == as documented; <= and >= hold already if one component is smaller/larger or equal (C59_le_wrong)."
  },
  {
   "property": "C60",
   "status": "partial",
   "theorems": [
    "Verif.Stream.C60_exact_partial",
    "Verif.Stream.C60_cuts",
    "Verif.Stream.C60_once_partial",
    "Verif.Stream.C60_frozen_false",
    "Verif.Stream.C60_long_step_false",
    "Verif.Stream.C60_boundary_false"
   ],
   "note": "Proved for particles moving with their own momentum, |v_z| < 1 and steps that start at t >= 0 or are not longer than the proper time. False otherwise: C60_frozen_false (beam momentum used for the test, own momentum for the point), C60_long_step_false, and a particle exactly on the hypersurface at a step boundary is reported twice (C60_boundary_false)."
  },
  {
   "property": "C61",
   "status": "partial",
   "theorems": [
    "Verif.Actions.C61_begin_not_earliest",
    "Verif.Actions.C61_begin_is_latest_of_two",
    "Verif.Actions.C61_begin_partial"
   ],
   "note": "False for the code: begin() iterates the heap's vector from its end (C61_begin_not_earliest, C61_begin_is_latest_of_two). Proved: with at most one action begin() yields the earliest."
  },
  {
   "property": "C62",
   "status": "partial",
   "theorems": [
    "Verif.Pdg.C62_content_partial",
    "Verif.Pdg.C62_kaon_inconsistent"
   ],
   "note": "Proved for baryons and for mesons written heavier quark first; false for K0_L = 130 (C62_kaon_inconsistent)."
  },
  {
   "property": "C63",
   "status": "proved",
   "theorems": [
    "Verif.Pdg.C63_classes"
   ],
   "note": "Full statement."
  },
  {
   "property": "C64",
   "status": "partial",
   "theorems": [
    "Verif.Pdg.C64_antiparticle_of_partial",
    "Verif.Pdg.C64_nuclei_confused"
   ],
   "note": "Proved for codes made from integers; false for nuclei (C64_nuclei_confused)."
  },
  {
   "property": "C65",
   "status": "partial",
   "theorems": [
    "Verif.Lattice.C65_value_at",
    "Verif.Lattice.C65_value_at_periodic_partial",
    "Verif.Lattice.C65_far_point"
   ],
   "note": "Non-periodic: complete. Periodic: up to 256 periods on the negative side, beyond that the storage is left (C65_far_point)."
  },
  {
   "property": "C66",
   "status": "partial",
   "theorems": [
    "Verif.Lattice.C66_nearest_partial",
    "Verif.Lattice.C66_outside_point"
   ],
   "note": "Proved for points on the lattice; points outside are not checked by the code (C66_outside_point)."
  },
  {
   "property": "C67",
   "status": "partial",
   "theorems": [
    "Verif.Kin.C67_rotations",
    "Verif.Kin.C67_z_axis_partial",
    "Verif.Kin.C67_tiny_vector",
    "Verif.Kin.C67_angles_in_range",
    "Verif.Kin.C67_set_phi",
    "Verif.Kin.C67_unit",
    "Verif.Kin.C67_add_to_theta",
    "Verif.Kin.C67_add_to_theta_rejects",
    "Verif.Kin.C67_add_to_theta_reverse",
    "Verif.Kin.C67_rejected_value_kept"
   ],
   "note": "rotate_z_axis_to is right unless both transverse components of its argument are below 1e-6 (C67_tiny_vector); the angle ranges hold after calls that return, a rejected set_costheta leaves the rejected value in the object (C67_rejected_value_kept)."
  },
  {
   "property": "C68",
   "status": "proved",
   "theorems": [
    "Verif.Kin.C68_center_of_velocity",
    "Verif.Kin.C68_fixed_target",
    "Verif.Kin.C68_t_range"
   ],
   "note": "Real arithmetic in place of doubles."
  },
  {
   "property": "C69",
   "status": "partial",
   "theorems": [
    "Verif.Act.C69_spin_norm_partial",
    "Verif.Act.C69_not_orthogonal",
    "Verif.Act.C69_right_direction"
   ],
   "note": "the norm is right, orthogonality is refuted by C69_not_orthogonal: the code boosts with +v instead of -v; C69_right_direction shows that -v would be orthogonal"
  },
  {
   "property": "C70",
   "status": "partial",
   "theorems": [
    "Verif.Act.C70_partial_weight_partial",
    "Verif.Act.C70_parametrized"
   ],
   "note": "proved when the total is not parametrised; C70_parametrized refutes it for parametrised totals"
  },
  {
   "property": "C71",
   "status": "partial",
   "theorems": [
    "Verif.Decay.C71_charge_violated",
    "Verif.Decay.C71_mode_before_section",
    "Verif.Decay.C71_loaded_partial"
   ],
   "note": "proved if the isospin coefficients respect charge; C71_charge_violated shows that for multiplets only isospin is checked; splitting lines into words is not modelled"
  },
  {
   "property": "C72",
   "status": "proved",
   "theorems": [
    "Verif.Config.C72_extract",
    "Verif.Config.C72_extract_errors",
    "Verif.Config.C72_set_value",
    "Verif.Config.C72_remove_all_but_one"
   ],
   "note": "Exact key sets after extraction, enclosure, set_value (unless a sequence is used as a section) and removal of entries."
  },
  {
   "property": "C73",
   "status": "partial",
   "theorems": [
    "Verif.Config.C73_full",
    "Verif.Config.C73_short",
    "Verif.Config.C73_defined_partial",
    "Verif.Config.C73_short_key_ub"
   ],
   "note": "Result of validation characterised for every configuration and database; validation is undefined behaviour if a key of the configuration is a proper prefix of a key read as a map (C73_short_key_ub), defined otherwise."
  },
  {
   "property": "C74",
   "status": "proved",
   "theorems": [
    "Verif.Tab.C74_spline",
    "Verif.Tab.C74_trilinear"
   ],
   "note": "The GSL spline itself is a parameter."
  },
  {
   "property": "C75",
   "status": "partial",
   "theorems": [
    "Verif.Therm.C75_velocity",
    "Verif.Therm.C75_momentum_partial",
    "Verif.Therm.C75_heavy_false"
   ],
   "note": "Common velocity, masses and mass shell proved for all inputs; energy within the tolerance of the search if the invariant mass is within its range. False when the sampled particles are heavier than the invariant mass (C75_heavy_false)."
  },
  {
   "property": "C76",
   "status": "proved",
   "theorems": [
    "Verif.Bin.C76_accepted",
    "Verif.Bin.C76_binary_line",
    "Verif.Bin.C76_text_line",
    "Verif.Bin.C76_header_lines",
    "Verif.Bin.C76_chunks"
   ],
   "note": "Accepted quantity lists characterised, binary and text lines, header lines and chunked writing for every converter and buffer size. The printf number formats are a contract (no blank, not empty); the 12-character buffer of %g can be exceeded by values like -1.23457e-300 (finding)."
  },
  {
   "property": "C77",
   "status": "proved",
   "theorems": [
    "Verif.Scat.C77_transverse",
    "Verif.Scat.C77_transverse_slow",
    "Verif.Scat.C77_covariant",
    "Verif.Scat.C77_same_distance",
    "Verif.Scat.C77_covariant_time",
    "Verif.Scat.C77_relative_velocity"
   ],
   "note": "Real arithmetic; slow pairs (relative momentum below 1e-3 GeV) use the present distance (C77_transverse_slow)."
  },
  {
   "property": "C78",
   "status": "proved",
   "theorems": [
    "Verif.Scat.C78_range",
    "Verif.Scat.C78_ends",
    "Verif.Scat.C78_monotone"
   ],
   "note": "Real arithmetic."
  },
  {
   "property": "C79",
   "status": "partial",
   "theorems": [
    "Verif.Stream.C79_hubble_partial",
    "Verif.Stream.C79_exponential_false",
    "Verif.Stream.C79_step"
   ],
   "note": "The exponential metric uses H = b t instead of the documented b/2 (C79_exponential_false)."
  },
  {
   "property": "C80",
   "status": "proved",
   "theorems": [
    "Verif.Types.C80_multiplets",
    "Verif.Types.C80_states",
    "Verif.Types.C80_names"
   ],
   "note": "For the first successful load; C80_names assumes names without the byte 0xE2 that starts the charge suffixes."
  },
  {
   "property": "C81",
   "status": "proved",
   "theorems": [
    "Verif.Rand.C81_nonnegative",
    "Verif.Rand.C81_uniform"
   ],
   "note": "Non-negativity and the exact preimages of every seed, on 32- and 64-bit vectors."
  },
  {
   "property": "C82",
   "status": "partial",
   "theorems": [
    "Verif.Rand.C82_upper",
    "Verif.Rand.C82_lower_partial",
    "Verif.Rand.C82_lower_false"
   ],
   "note": "Upper bound for all orders and arguments; lower bound for a^2 <= 4(n+200) (C82_lower_partial); violated at a = 10^6, n = 0 (C82_lower_false). Exact arithmetic."
  },
  {
   "property": "C83",
   "status": "partial",
   "theorems": [
    "Verif.Lst.C83_on_shell",
    "Verif.Lst.C83_refused",
    "Verif.Lst.C83_nan",
    "Verif.Lst.C83_negative_energy_false"
   ],
   "note": "All species, masses and vectors over the reals, with NaN as a distinct value. Violated for the sign of the energy: a negative energy is kept if its square is consistent (C83_negative_energy_false). The warnings are not modelled."
  },
  {
   "property": "C84",
   "status": "proved",
   "theorems": [
    "Verif.Lst.C84_earliest",
    "Verif.Lst.C84_together",
    "Verif.Lst.C84_empty",
    "Verif.Lst.C84_validation"
   ],
   "note": "All lists of particles, over the reals; printed positions are an arbitrary type with equality."
  },
  {
   "property": "C85",
   "status": "proved",
   "theorems": [
    "Verif.Frag.C85_diquark",
    "Verif.Frag.C85_diquark_back",
    "Verif.Frag.C85_ends",
    "Verif.Frag.C85_nucleon"
   ],
   "note": "For hadrons with two or three quarks of the five flavours (Light). Random choices are arguments."
  },
  {
   "property": "C86",
   "status": "partial",
   "theorems": [
    "Verif.Frag.C86_excess",
    "Verif.Frag.C86_rearrange",
    "Verif.Frag.C86_restored",
    "Verif.Frag.C86_terminates",
    "Verif.Frag.C86_refused",
    "Verif.Frag.C86_split",
    "Verif.Frag.C86_gluon",
    "Verif.Frag.C86_gluon_false"
   ],
   "note": "False for the code in one respect: a gluon is overlooked if the first parton is a quark of larger rapidity (C86_gluon_false). Proved: net flavour of the actual hadrons and number of partons for every choice, termination, refusal criterion, flavour neutrality of gluon splitting. Momenta and energies of the event are not modelled."
  },
  {
   "property": "C87",
   "status": "partial",
   "theorems": [
    "Verif.Frag.C87_resonance",
    "Verif.Frag.C87_found",
    "Verif.Frag.C87_closest_partial",
    "Verif.Frag.C87_closest_false",
    "Verif.Frag.C87_leading"
   ],
   "note": "False for the code: the search for the closest pole mass compares with a signed difference (C87_closest_false). Proved: quantum numbers, existence, the leading hadron, and closeness if no admissible pole mass is above the string mass (C87_closest_partial)."
  },
  {
   "property": "C88",
   "status": "proved",
   "theorems": [
    "Verif.Frag.C88_leading",
    "Verif.Frag.C88_distance",
    "Verif.Frag.C88_range"
   ],
   "note": "For every non-empty list of fragments whose total baryon number is that of the string; the list access is then always within bounds."
  },
  {
   "property": "C89",
   "status": "proved",
   "theorems": [
    "Verif.Frag.C89_basis",
    "Verif.Frag.C89_two_strings",
    "Verif.Frag.C89_transfer",
    "Verif.Frag.C89_quarks",
    "Verif.Frag.C89_single",
    "Verif.Frag.C89_regroup",
    "Verif.Frag.C89_fragments",
    "Verif.Frag.C89_formation",
    "Verif.Frag.C89_final_two",
    "Verif.Frag.C89_fraction"
   ],
   "note": "Over the reals. The azimuthal basis within 1e-8 of the z axis is the exact axis (C89_basis says so); the drawn fractions and transverse momenta are arguments."
  },
  {
   "property": "C90",
   "status": "partial",
   "theorems": [
    "Verif.Frag.C90_numbers",
    "Verif.Frag.C90_flavour",
    "Verif.Frag.C90_others",
    "Verif.Frag.C90_sign",
    "Verif.Frag.C90_charge_false"
   ],
   "note": "False for the code: neutral mesons are mapped to pi+ and neutrinos to positrons (C90_charge_false). Proved: baryon number, numbers of quarks and antiquarks, no opposite charge, neutral baryons to neutral ones."
  },
  {
   "property": "C91",
   "status": "proved",
   "theorems": [
    "Verif.Coll.C91_counts",
    "Verif.Coll.C91_arrange",
    "Verif.Coll.C91_fermi",
    "Verif.Coll.C91_fermi_draw",
    "Verif.Coll.C91_boost"
   ],
   "note": "Proved over the real numbers."
  },
  {
   "property": "C92",
   "status": "partial",
   "theorems": [
    "Verif.Coll.C92_velocities",
    "Verif.Coll.C92_options_partial",
    "Verif.Coll.C92_two_beams_partial",
    "Verif.Coll.C92_total_energies_false",
    "Verif.Coll.C92_below_mass_false",
    "Verif.Coll.C92_one_option",
    "Verif.Coll.C92_total_energy"
   ],
   "note": "Velocities, frame conditions and total invariant mass proved for all inputs above threshold; energy options sqrt(s_NN), E_Tot, E_Kin, P_Lab proved consistent. False: sqrt(s_NN) for total energies of two beams (C92_total_energies_false), E_Tot below the mass accepted (C92_below_mass_false); two-beam kinetic energies and momenta inherit the errors shown in C31."
  },
  {
   "property": "C93",
   "status": "partial",
   "theorems": [
    "Verif.Coll.C93_start",
    "Verif.Coll.C93_at_rest_false"
   ],
   "note": "Proved for a moving projectile; with kinetic energy 0 the start time is a division by zero (C93_at_rest_false)."
  },
  {
   "property": "C94",
   "status": "partial",
   "theorems": [
    "Verif.Coll.C94_quadratic",
    "Verif.Coll.C94_quadratic_reversed",
    "Verif.Coll.C94_custom_partial",
    "Verif.Coll.C94_assertion_false"
   ],
   "note": "Quadratic and custom sampling proved; in debug builds the assertion probability < 1 fails at the maximal yield (C94_assertion_false)."
  },
  {
   "property": "C95",
   "status": "proved",
   "theorems": [
    "Verif.Coll.C95_tetrahedron",
    "Verif.Coll.C95_clusters"
   ],
   "note": "Proved over the real numbers."
  },
  {
   "property": "C96",
   "status": "partial",
   "theorems": [
    "Verif.Coll.C96_events_partial",
    "Verif.Coll.C96_wrong_numbers",
    "Verif.Coll.C96_labels_false",
    "Verif.Coll.C96_last_line_false"
   ],
   "note": "Proved for files with a newline after every line; without it the last line is never used (C96_last_line_false); the label of the nucleus is lost from the second event on (C96_labels_false)."
  },
  {
   "property": "C97",
   "status": "proved",
   "theorems": [
    "Verif.Coll.C97_densities",
    "Verif.Coll.C97_weights",
    "Verif.Coll.C97_woods_saxon",
    "Verif.Coll.C97_radius"
   ],
   "note": "Proved over the real numbers."
  },
  {
   "property": "C98",
   "status": "partial",
   "theorems": [
    "Verif.Multi.C98_codes",
    "Verif.Multi.C98_reactions",
    "Verif.Multi.C98_conserved",
    "Verif.Multi.C98_no_protons_false"
   ],
   "note": "The reactions offered are exactly the documented table, in every order, and conserve all charges; not for particle tables without protons, where five pions lead to a null dereference (C98_no_protons_false)."
  },
  {
   "property": "C99",
   "status": "partial",
   "theorems": [
    "Verif.Multi.C99_three_to_two",
    "Verif.Multi.C99_four_to_two",
    "Verif.Multi.C99_five_to_two",
    "Verif.Multi.C99_three_to_one",
    "Verif.Multi.C99_phi4_positive",
    "Verif.Multi.C99_phi5_positive",
    "Verif.Multi.C99_order_partial"
   ],
   "note": "Detailed balance is proved for all four kinds of reactions, and positivity of the phase-space parametrisations. Order independence (C99_order_partial) assumes that the numerically integrated three-body phase space is symmetric in the exchange of the last two masses."
  },
  {
   "property": "C100",
   "status": "partial",
   "theorems": [
    "Verif.Xs.C100_bounds",
    "Verif.Xs.C100_conserved",
    "Verif.Xs.C100_total_partial",
    "Verif.Xs.C100_one_resonance",
    "Verif.Xs.C100_two_resonances_false",
    "Verif.Xs.C100_no_process_false"
   ],
   "note": "Bounds, stability and conservation hold always. The sum is exact if no decay is judged impossible (C100_total_partial); for two resonances the code subtracts masses twice and loses the whole cross section (C100_two_resonances_false); without any process a final state of 1 mb is printed (C100_no_process_false)."
  },
  {
   "property": "C101",
   "status": "partial",
   "theorems": [
    "Verif.Xs.C101_deduplicate",
    "Verif.Xs.C101_table",
    "Verif.Xs.C101_close_points_false",
    "Verif.Xs.C101_momenta_partial",
    "Verif.Xs.C101_duplicate_false"
   ],
   "note": "Proved for energies at least 1e-6 GeV apart; closer ones are added up (C101_close_points_false) and a repeated momentum makes the program stop with an exception (C101_duplicate_false)."
  },
  {
   "property": "C102",
   "status": "partial",
   "theorems": [
    "Verif.Pauli.C102_wall",
    "Verif.Pauli.C102_blocked_iff",
    "Verif.Pauli.C102_alone",
    "Verif.Pauli.C102_average",
    "Verif.Pauli.C102_between_partial",
    "Verif.Pauli.C102_interpolation_false",
    "Verif.Pauli.C102_ensembles_false",
    "Verif.Pauli.C102_overlap",
    "Verif.Pauli.C102_overlap_centre",
    "Verif.Pauli.C102_norm",
    "Verif.Pauli.C102_weights"
   ],
   "note": "The decision, the locality, the averaging and the exact value of the tabulated overlap integrals are proved. The interpolation in the table uses its two entries the wrong way round, so it is only known to lie between them (C102_between_partial, C102_interpolation_false), and with several ensembles unrelated particles with the number of an incoming one are left out (C102_ensembles_false)."
  },
  {
   "property": "C103",
   "status": "proved",
   "theorems": [
    "Verif.Inter.C103_free",
    "Verif.Inter.C103_box",
    "Verif.Inter.C103_stochastic"
   ],
   "note": ""
  },
  {
   "property": "C104",
   "status": "proved",
   "theorems": [
    "Verif.Inter.C104_last_formed",
    "Verif.Inter.C104_formed",
    "Verif.Inter.C104_unformed",
    "Verif.Inter.C104_scale"
   ],
   "note": ""
  },
  {
   "property": "C105",
   "status": "proved",
   "theorems": [
    "Verif.Emt.C105_index",
    "Verif.Emt.C105_particles",
    "Verif.Emt.C105_weight",
    "Verif.Emt.C105_arithmetic",
    "Verif.Emt.C105_boost",
    "Verif.Emt.C105_boosted_particles",
    "Verif.Emt.C105_there_and_back",
    "Verif.Emt.C105_trace"
   ],
   "note": ""
  },
  {
   "property": "C106",
   "status": "partial",
   "theorems": [
    "Verif.Emt.C106_four_velocity",
    "Verif.Emt.C106_no_flow_partial",
    "Verif.Emt.C106_physical",
    "Verif.Emt.C106_fast_frame_false"
   ],
   "note": "A time-like eigenvector whose square (at unit Euclidean length) is below 1e-6 is rejected and the laboratory frame returned (C106_fast_frame_false); the solver is a contract with real eigenvalues."
  },
  {
   "property": "C107",
   "status": "partial",
   "theorems": [
    "Verif.Dens.C107_normalised",
    "Verif.Dens.C107_rest_density_partial",
    "Verif.Dens.C107_unsmeared_false",
    "Verif.Dens.C107_density_derivative_partial",
    "Verif.Dens.C107_mixed_derivative_false",
    "Verif.Dens.C107_participants",
    "Verif.Dens.C107_smearing",
    "Verif.Dens.C107_gradient",
    "Verif.Dens.C107_current",
    "Verif.Dens.C107_derivatives",
    "Verif.Dens.C107_continuity"
   ],
   "note": "The density derivative is wrong for mixed charges (C107_mixed_derivative_false), the rest density without smearing carries the normalisation of the Gaussian (C107_unsmeared_false); the normalisation is proved for particles at rest; density_factor is a parameter."
  },
  {
   "property": "C108",
   "status": "partial",
   "theorems": [
    "Verif.Dens.C108_discrete_partial",
    "Verif.Dens.C108_triangular_partial",
    "Verif.Dens.C108_border_false",
    "Verif.Dens.C108_fractional_range_false"
   ],
   "note": "Discrete smearing over-counts particles in border cells (C108_border_false); triangular smearing with a range that is no integer does not conserve charge (C108_fractional_range_false)."
  },
  {
   "property": "C109",
   "status": "partial",
   "theorems": [
    "Verif.Sec.C109_nuclei_weight",
    "Verif.Sec.C109_hadrons",
    "Verif.Sec.C109_rare",
    "Verif.Sec.C109_nuclei_partial",
    "Verif.Sec.C109_hypertriton_false"
   ],
   "note": "Proved for hadrons (C109_hadrons, C109_rare) and, for incoming nuclei, for charge and baryon number, for strangeness if nuclei of equal charge and baryon number have equal strangeness (C109_nuclei_partial). C109_hypertriton_false: with the default particle list p + t -> p + hypertriton violates strangeness. Parametrised cross sections and integrals are oracles."
  },
  {
   "property": "C110",
   "status": "partial",
   "theorems": [
    "Verif.Sec.C110_strangeness_exchange",
    "Verif.Sec.C110_delta_kaon_partial",
    "Verif.Sec.C110_ratios",
    "Verif.Sec.C110_cutoff_false"
   ],
   "note": "Strangeness exchange in full; K Delta only below the K N -> K Delta energy cutoff, which the code applies only to the forward reaction (C110_cutoff_false). Parametrised cross sections are oracles."
  },
  {
   "property": "C111",
   "status": "partial",
   "theorems": [
    "Verif.Sec.C111_conjugate_partial",
    "Verif.Sec.C111_rare_conjugate",
    "Verif.Sec.C111_order"
   ],
   "note": "Order: all pairs. Charge conjugation: hadrons, including N N -> d pi, and the rare pi N -> Y K channels; missing: incoming nuclei."
  },
  {
   "property": "C112",
   "status": "partial",
   "theorems": [
    "Verif.Tot.C112_string_channels",
    "Verif.Tot.C112_total_partial",
    "Verif.Tot.C112_gap",
    "Verif.Tot.C112_defined",
    "Verif.Tot.C112_annihilation",
    "Verif.Tot.C112_rare_false",
    "Verif.Tot.C112_unscaled_false",
    "Verif.Tot.C112_no_single_false"
   ],
   "note": "Proved for pairs other than pion-nucleon without enabled rare channels and with strings chosen by probability; C112_rare_false, C112_unscaled_false and C112_no_single_false show that the sum rule fails in the code for rare channels, with scaled cross sections and thresholds, and that a vanishing single-diffractive cross section gives NaN."
  },
  {
   "property": "C113",
   "status": "proved",
   "theorems": [
    "Verif.Tot.C113_range",
    "Verif.Tot.C113_defined",
    "Verif.Tot.C113_monotone",
    "Verif.Tot.C113_ends",
    "Verif.Tot.C113_transit",
    "Verif.Tot.C113_bbbar",
    "Verif.Tot.C113_region",
    "Verif.Tot.C113_point_false"
   ],
   "note": "For transition regions of positive width; C113_point_false: an empty transition region gives NaN."
  },
  {
   "property": "C114",
   "status": "partial",
   "theorems": [
    "Verif.Tot.C114_channels_partial",
    "Verif.Tot.C114_fluid",
    "Verif.Tot.C114_malformed_false",
    "Verif.Tot.C114_no_lambda_false"
   ],
   "note": "All channels have a weight that is not negative and conserve the quantum numbers, for well-formed nuclei above threshold and a particle list with the Lambda. C114_malformed_false and C114_no_lambda_false are counterexamples outside these hypotheses."
  },
  {
   "property": "C115",
   "status": "partial",
   "theorems": [
    "Verif.Tot.C115_elastic_order",
    "Verif.Tot.C115_total_order",
    "Verif.Tot.C115_high_energy_order",
    "Verif.Tot.C115_probability_order",
    "Verif.Tot.C115_elastic_conjugation",
    "Verif.Tot.C115_total_conjugation",
    "Verif.Tot.C115_probability_conjugation",
    "Verif.Tot.C115_high_energy_false"
   ],
   "note": "Order: elastic, total, strings, probability. Antiparticles: elastic, total, probability; C115_high_energy_false: the string cross section of pi- pbar differs from that of pi+ p."
  },
  {
   "property": "C116",
   "status": "proved",
   "theorems": [
    "Verif.Wid.C116_range",
    "Verif.Wid.C116_monotone",
    "Verif.Wid.C116_zero",
    "Verif.Wid.C116_large",
    "Verif.Wid.C116_small",
    "Verif.Wid.C116_post"
   ],
   "note": "formfactors.h in full: general formula for every L from the recursion in the code, range, monotony, zeros, both limits; the form factor of unstable daughters."
  },
  {
   "property": "C117",
   "status": "partial",
   "theorems": [
    "Verif.Wid.C117_threshold",
    "Verif.Wid.C117_nonneg",
    "Verif.Wid.C117_pole",
    "Verif.Wid.C117_dilepton_false",
    "Verif.Wid.C117_monotone",
    "Verif.Wid.C117_total",
    "Verif.Wid.C117_stable",
    "Verif.Wid.C117_min_mass_stable",
    "Verif.Wid.C117_min_mass",
    "Verif.Wid.C117_branches"
   ],
   "note": "All kinds of decays. Violated for decays into two leptons: their width at the pole is below the given one (C117_dilepton_false); the width of tabulated three-body dilepton decays is an arbitrary function."
  },
  {
   "property": "C118",
   "status": "proved",
   "theorems": [
    "Verif.Wid.C118_breit_wigner",
    "Verif.Wid.C118_normalised",
    "Verif.Wid.C118_cauchy",
    "Verif.Wid.C118_cauchy_normalised",
    "Verif.Wid.C118_law"
   ],
   "note": "Integrals in closed form between M^2/b and b and their limits; inverse cumulative distribution of the drawn mass."
  },
  {
   "property": "C119",
   "status": "partial",
   "theorems": [
    "Verif.Wid.C119_smallest",
    "Verif.Wid.C119_single",
    "Verif.Wid.C119_accept",
    "Verif.Wid.C119_density",
    "Verif.Wid.C119_envelope",
    "Verif.Wid.C119_pair_partial",
    "Verif.Wid.C119_pair_false",
    "Verif.Wid.C119_pair_density",
    "Verif.Wid.C119_masses_partial",
    "Verif.Wid.C119_too_little",
    "Verif.Wid.C119_gap_false"
   ],
   "note": "Violated if a random number is exactly 0 (C119_pair_false: two masses above the energy) and for energies between the kinematic threshold and the smallest mass (C119_gap_false: uniform distribution with inverted bounds)."
  },
  {
   "property": "C120",
   "status": "proved",
   "theorems": [
    "Verif.Wid.C120_decays",
    "Verif.Wid.C120_exponential_law",
    "Verif.Wid.C120_none",
    "Verif.Wid.C120_final"
   ],
   "note": "Decision and time of one decay from its random number; the exponential law for any sequence of time steps as a product of Lebesgue measures."
  },
  {
   "property": "C121",
   "status": "partial",
   "theorems": [
    "Verif.Ini.C121_box",
    "Verif.Ini.C121_defined",
    "Verif.Ini.C121_peaked",
    "Verif.Ini.C121_jet",
    "Verif.Ini.C121_jet_place_false"
   ],
   "note": "The initial jet is documented to be in the middle of the box but starts in a corner (C121_jet_place_false); everything else holds for every configuration and every random sequence."
  },
  {
   "property": "C122",
   "status": "partial",
   "theorems": [
    "Verif.Ini.C122_uniform",
    "Verif.Ini.C122_flow",
    "Verif.Ini.C122_sphere",
    "Verif.Ini.C122_total_partial",
    "Verif.Ini.C122_flow_total",
    "Verif.Ini.C122_total_false",
    "Verif.Ini.C122_lightspeed_false",
    "Verif.Ini.C122_jets"
   ],
   "note": "With radial flow the momenta before the boost are counted too, so the total momentum is not zero (C122_total_false, exact value in C122_flow_total); radial velocity 1 with exponent 0 is accepted and gives no masses (C122_lightspeed_false). Zero total momentum is proved without flow."
  },
  {
   "property": "C123",
   "status": "partial",
   "theorems": [
    "Verif.Ini.C123_massive",
    "Verif.Ini.C123_massive_range",
    "Verif.Ini.C123_massive_false",
    "Verif.Ini.C123_moments",
    "Verif.Ini.C123_moments_range",
    "Verif.Ini.C123_moments_false",
    "Verif.Ini.C123_first",
    "Verif.Ini.C123_first_thermal",
    "Verif.Ini.C123_hot",
    "Verif.Ini.C123_branches",
    "Verif.Ini.C123_cold",
    "Verif.Ini.C123_es"
   ],
   "note": "Above m = 50 T no momentum of the massive distribution is found (C123_massive_false), and for m = 6 T the bounds of the two moment distributions are negative (C123_moments_false), so no proposal is rejected. Boltzmann sampling is proved for every mass and temperature, the massive distribution for m up to 50 T, the two moment distributions for massless particles. That the loops end is a matter of probability and not stated."
  },
  {
   "property": "C124",
   "status": "partial",
   "theorems": [
    "Verif.Ini.C124_occupation",
    "Verif.Ini.C124_shape",
    "Verif.Ini.C124_maximum",
    "Verif.Ini.C124_gas",
    "Verif.Ini.C124_sample",
    "Verif.Ini.C124_species",
    "Verif.Ini.C124_thermal_false"
   ],
   "note": "With thermal multiplicities the tables are empty and an end iterator is dereferenced (C124_thermal_false). Otherwise proved, with the root of the equation of the maximum taken as exact (the program stops at a residual of 1e-8)."
  },
  {
   "property": "C125",
   "status": "partial",
   "theorems": [
    "Verif.Pot.C125_value",
    "Verif.Pot.C125_odd",
    "Verif.Pot.C125_force",
    "Verif.Pot.C125_conservative",
    "Verif.Pot.C125_mirror",
    "Verif.Pot.C125_scale",
    "Verif.Pot.C125_scale_nucleus",
    "Verif.Pot.C125_hypernucleus_false",
    "Verif.Pot.C125_antiparticle",
    "Verif.Pot.C125_antimatter_false",
    "Verif.Pot.C125_symmetry_value",
    "Verif.Pot.C125_symmetry_force",
    "Verif.Pot.C125_symmetry_false"
   ],
   "note": "Proved for matter (positive density), for baryons and for nuclei without Lambdas. False for antimatter (C125_antimatter_false: the force of the mirrored surroundings is the same, so antibaryons are pushed the wrong way), for hypernuclei (C125_hypernucleus_false) and for a density dependent symmetry potential where the baryon density is zero or negative (C125_symmetry_false: not a number)."
  },
  {
   "property": "C126",
   "status": "partial",
   "theorems": [
    "Verif.Pot.C126_value",
    "Verif.Pot.C126_rest",
    "Verif.Pot.C126_field",
    "Verif.Pot.C126_antimatter_false",
    "Verif.Pot.C126_force",
    "Verif.Pot.C126_direct"
   ],
   "note": "Proved for matter with the density of the net current. False for antimatter: C126_antimatter_false (the field does not change sign). Mixtures of matter and antimatter, where the code's density is not the one of the net current, are not covered."
  },
  {
   "property": "C127",
   "status": "proved",
   "theorems": [
    "Verif.Pot.C127_moving",
    "Verif.Pot.C127_rest",
    "Verif.Pot.C127_fermi",
    "Verif.Pot.C127_part",
    "Verif.Pot.C127_bounds"
   ],
   "note": "For exact real arithmetic; the value at rest is used below 1e-6/fm."
  },
  {
   "property": "C128",
   "status": "partial",
   "theorems": [
    "Verif.Pot.C128_equation",
    "Verif.Pot.C128_frame",
    "Verif.Pot.C128_comoving",
    "Verif.Pot.C128_search",
    "Verif.Pot.C128_energy",
    "Verif.Pot.C128_gradient",
    "Verif.Pot.C128_gradient_exact",
    "Verif.Pot.C128_current",
    "Verif.Pot.C128_antimatter_false"
   ],
   "note": "The equation is proved for every current of matter; the size of the found energy only for currents at rest (otherwise the equation is only piecewise continuous). Both signs of the energy solve the equation. False for antimatter: C128_antimatter_false."
  },
  {
   "property": "C129",
   "status": "partial",
   "theorems": [
    "Verif.Pot.C129_force",
    "Verif.Pot.C129_update",
    "Verif.Pot.C129_effect",
    "Verif.Pot.C129_node",
    "Verif.Pot.C129_symmetry_false",
    "Verif.Pot.C129_coulomb_false"
   ],
   "note": "False for a symmetry potential alone with a lattice (C129_symmetry_false: never updated, or null pointer) and for a Coulomb potential without a lattice (C129_coulomb_false: null pointer). The warning about the time step and the parallel copies are not modelled."
  },
  {
   "property": "C130",
   "status": "partial",
   "theorems": [
    "Verif.Pot.C130_electric",
    "Verif.Pot.C130_magnetic",
    "Verif.Pot.C130_sum",
    "Verif.Pot.C130_direction",
    "Verif.Pot.C130_law_false"
   ],
   "note": "Directions, sums and the inverse square are proved. False for the size: C130_law_false, the force is 4 pi times Coulomb's law. The sum over cells replaces the integral as in the code."
  },
  {
   "property": "C131",
   "status": "partial",
   "theorems": [
    "Verif.Pot.C131_bracket",
    "Verif.Pot.C131_root",
    "Verif.Pot.C131_same_sign",
    "Verif.Pot.C131_complete",
    "Verif.Pot.C131_zero_false",
    "Verif.Pot.C131_own",
    "Verif.Pot.C131_shared_false"
   ],
   "note": "The GSL is assumed to keep an interval with a change of sign. False for a root at zero (C131_zero_false: the precision is relative) and for two finders at the same time (C131_shared_false: the equation is static)."
  },
  {
   "property": "C132",
   "status": "partial",
   "theorems": [
    "Verif.Fluid.C132_window",
    "Verif.Fluid.C132_found",
    "Verif.Fluid.C132_time",
    "Verif.Fluid.C132_fraction",
    "Verif.Fluid.C132_initial",
    "Verif.Fluid.C132_minimum_false",
    "Verif.Fluid.C132_limits_partial",
    "Verif.Fluid.C132_kernel_false",
    "Verif.Fluid.C132_kernel_one"
   ],
   "note": "Decision and times proved for particles of one time. False: C132_minimum_false (a particle can become fluid before the minimal time; within one step it holds, C132_limits_partial), C132_kernel_false (own contribution computed with (2 pi sigma)^(-3/2), right only for sigma = 1). The energy density is an arbitrary function (lattice and Landau frame are C105-C108 and the lattice properties)."
  },
  {
   "property": "C133",
   "status": "partial",
   "theorems": [
    "Verif.Fluid.C133_inherited",
    "Verif.Fluid.C133_multi_false",
    "Verif.Fluid.C133_gate",
    "Verif.Fluid.C133_no_core",
    "Verif.Fluid.C133_uninitialised",
    "Verif.Fluid.C133_garbage",
    "Verif.Fluid.C133_fluidize",
    "Verif.Fluid.C133_check",
    "Verif.Fluid.C133_check_passes"
   ],
   "note": "Inheritance proved for all histories without multi-particle reactions. False: C133_multi_false (products of multi-particle reactions are not fluid), C133_uninitialised (the type of a scattering or decay is read before it is set, so whether core and corona scatter elastically depends on uninitialised memory, C133_garbage)."
  },
  {
   "property": "C134",
   "status": "partial",
   "theorems": [
    "Verif.Fluid.C134_core",
    "Verif.Fluid.C134_corona",
    "Verif.Fluid.C134_ends",
    "Verif.Fluid.C134_momentum",
    "Verif.Fluid.C134_formation_false",
    "Verif.Fluid.C134_forward_false",
    "Verif.Fluid.C134_back_partial",
    "Verif.Fluid.C134_two_lists"
   ],
   "note": "Proved for this finder alone (decays of the final stage are other finders). False: C134_forward_false (last collision less than 0.01 fm ago: moved forward; otherwise back, C134_back_partial), C134_formation_false (the formation time set to exclude further actions is overwritten)."
  },
  {
   "property": "C135",
   "status": "partial",
   "theorems": [
    "Verif.Fluid.C135_lines",
    "Verif.Fluid.C135_spectators",
    "Verif.Fluid.C135_accepted",
    "Verif.Fluid.C135_same_time_false",
    "Verif.Fluid.C135_nan"
   ],
   "note": "Lines proved. False: C135_same_time_false (only later proper times are refused); C135_accepted says exactly which sequences are accepted. The formatting of the columns is not modelled here."
  },
  {
   "property": "C136",
   "status": "partial",
   "theorems": [
    "Verif.Fluid.C136_start",
    "Verif.Fluid.C136_contains",
    "Verif.Fluid.C136_long_steps_false"
   ],
   "note": "Proved for time steps of at most 5 fm; false for longer ones (C136_long_steps_false)."
  },
  {
   "property": "C137",
   "status": "partial",
   "theorems": [
    "Verif.Em.C137_step",
    "Verif.Em.C137_nothing",
    "Verif.Em.C137_additive",
    "Verif.Em.C137_final",
    "Verif.Em.C137_final_stable",
    "Verif.Em.C137_yield",
    "Verif.Em.C137_yield_false",
    "Verif.Em.C137_final_count",
    "Verif.Em.C137_once_partial",
    "Verif.Em.C137_once_false"
   ],
   "note": "The mean yield of shining during the evolution equals the branching ratio only if lifetimes are drawn from the total width (C137_yield); the code draws them from the hadronic widths (C137_yield_false). Each remaining particle shines once under the condition of C137_once_partial; otherwise resonances shine twice or not at all (C137_once_false)."
  },
  {
   "property": "C138",
   "status": "proved",
   "theorems": [
    "Verif.Em.C138_momenta",
    "Verif.Em.C138_weight",
    "Verif.Em.C138_refused"
   ],
   "note": "Momenta, weight and refusals of the Dalitz decay; the differential width is an arbitrary function whose integral is the width of the mode (C118 for the tabulated one)."
  },
  {
   "property": "C139",
   "status": "partial",
   "theorems": [
    "Verif.Em.C139_reactions",
    "Verif.Em.C139_pairs",
    "Verif.Em.C139_open_partial",
    "Verif.Em.C139_open_false",
    "Verif.Em.C139_momenta",
    "Verif.Em.C139_range",
    "Verif.Em.C139_actual",
    "Verif.Em.C139_transfer_partial",
    "Verif.Em.C139_transfer_false"
   ],
   "note": "Reactions, momenta and ranges are proved. A reaction at exactly the mass of the outgoing pion counts as possible but throws (C139_open_false); the momentum transfer is the one of the generated momenta only if the pion moves along z (C139_transfer_partial, C139_transfer_false)."
  },
  {
   "property": "C140",
   "status": "proved",
   "theorems": [
    "Verif.Em.C140_mean",
    "Verif.Em.C140_single",
    "Verif.Em.C140_range",
    "Verif.Em.C140_form_factors",
    "Verif.Em.C140_dipole"
   ],
   "note": "For arbitrary total and differential cross sections; that the analytic differential formulas integrate to the analytic total ones is not modelled. The form factor is taken at the photon energy in the frame of the calculation."
  },
  {
   "property": "C141",
   "status": "partial",
   "theorems": [
    "Verif.Em.C141_reactions",
    "Verif.Em.C141_channel",
    "Verif.Em.C141_energies",
    "Verif.Em.C141_energies_false",
    "Verif.Em.C141_momenta",
    "Verif.Em.C141_photon_energy_false"
   ],
   "note": "The photon energy generated is k - k^2/(2 sqrt(s)) instead of the drawn k (C141_photon_energy_false); the largest energy is right for equal masses only (C141_energies_false)."
  },
  {
   "property": "C142",
   "status": "partial",
   "theorems": [
    "Verif.Em.C142_mean_partial",
    "Verif.Em.C142_mean_false",
    "Verif.Em.C142_two_channels",
    "Verif.Em.C142_two_channels_false"
   ],
   "note": "The mean weight is at most the geometric mean of the two integrals (C142_mean_partial) and differs from the cross section already for simple differential cross sections (C142_mean_false); for pi+ pi- the channel drawn is weighted with its own cross section (C142_two_channels_false)."
  },
  {
   "property": "C143",
   "status": "proved",
   "theorems": [
    "Verif.Par.C143_nucleons",
    "Verif.Par.C143_antinucleons",
    "Verif.Par.C143_high",
    "Verif.Par.C143_strings",
    "Verif.Par.C143_pions",
    "Verif.Par.C143_deuterons",
    "Verif.Par.C143_kaons",
    "Verif.Par.C143_hyperons"
   ],
   "note": "All analytic parametrizations. The interpolated tables are arbitrary functions: those that are returned without a formula (total cross sections of pions and kaons, K- p elastic above 1.68 GeV, associated production) are outside the statement; smoothing can make such data negative, see C145."
  },
  {
   "property": "C144",
   "status": "partial",
   "theorems": [
    "Verif.Par.C144_antinucleons",
    "Verif.Par.C144_pp_partial",
    "Verif.Par.C144_pp_false",
    "Verif.Par.C144_np_partial",
    "Verif.Par.C144_np_false",
    "Verif.Par.C144_isospin",
    "Verif.Par.C144_kaons",
    "Verif.Par.C144_pomeranchuk"
   ],
   "note": "Antinucleons at all energies, two nucleons outside 0.4-0.435 GeV (pp), below 0.525 and 0.8-1 GeV (np) of momentum in the laboratory; false in the first two ranges (C144_pp_false, C144_np_false)."
  },
  {
   "property": "C145",
   "status": "partial",
   "theorems": [
    "Verif.Low.C145_regression",
    "Verif.Low.C145_points",
    "Verif.Low.C145_few",
    "Verif.Low.C145_short",
    "Verif.Low.C145_exact_majority",
    "Verif.Low.C145_positive_false",
    "Verif.Low.C145_unique",
    "Verif.Low.C145_units",
    "Verif.Low.C145_constant",
    "Verif.Low.C145_line_partial",
    "Verif.Low.C145_line_false"
   ],
   "note": "Refinement proved for delta = 0 and increasing abscissae, the only use; that smoothed positive data stay positive is false (C145_positive_false), data on a line are kept only if the fits are spread (C145_line_partial, C145_line_false). Data with ties or delta > 0 are modelled but not covered by the theorems."
  },
  {
   "property": "C146",
   "status": "partial",
   "theorems": [
    "Verif.Low.C146_partial_sort",
    "Verif.Low.C146_rank_zero_false",
    "Verif.Low.C146_median"
   ],
   "note": "False for rank 0 (C146_rank_zero_false), which the smoother uses only for two points (C145_short covers that case); proved for all other ranks."
  },
  {
   "property": "C147",
   "status": "partial",
   "theorems": [
    "Verif.Hep.C147_final",
    "Verif.Hep.C147_vertices",
    "Verif.Hep.C147_momentum",
    "Verif.Hep.C147_status",
    "Verif.Hep.C147_beams",
    "Verif.Hep.C147_final_only",
    "Verif.Hep.C147_errors",
    "Verif.Hep.C147_ion",
    "Verif.Hep.C147_neutron_false",
    "Verif.Hep.C147_box_false"
   ],
   "note": "Proved for all histories: final entries are the particles present, vertices have the incoming and outgoing particles of the interactions, momentum balance at vertices, beams, errors, codes of ions with two or more nucleons. False for a beam of a single neutron (wrong code) and for the final-state record outside of the collider modus (initial particles have the status of final ones). The library HepMC3 itself (file format) is outside of the repository."
  },
  {
   "property": "C148",
   "status": "partial",
   "theorems": [
    "Verif.Eos.C148_file",
    "Verif.Eos.C148_decision",
    "Verif.Eos.C148_check_small",
    "Verif.Eos.C148_check_false",
    "Verif.Eos.C148_truncated_false",
    "Verif.Eos.C148_empty_false",
    "Verif.Eos.C148_storage",
    "Verif.Eos.C148_compile",
    "Verif.Eos.C148_start",
    "Verif.Eos.C148_node",
    "Verif.Eos.C148_interpolation",
    "Verif.Eos.C148_outside",
    "Verif.Eos.C148_negative_false"
   ],
   "note": "Proved: storage, compilation (every node obeys its rule), nodes, interpolation, outside, file round trip, decision. False: negative densities (undefined conversion to an index), files which end early or have no proper number of nodes (state of the stream is never tested), and the check, which looks at every second node in each direction of the table of the program."
  },
  {
   "property": "C149",
   "status": "partial",
   "theorems": [
    "Verif.Eos.C149_sums",
    "Verif.Eos.C149_boltzmann",
    "Verif.Eos.C149_monotone",
    "Verif.Eos.C149_conjugate",
    "Verif.Eos.C149_energy",
    "Verif.Eos.C149_energy_pressure",
    "Verif.Eos.C149_energy_false",
    "Verif.Eos.C149_massless_false",
    "Verif.Eos.C149_neutral",
    "Verif.Eos.C149_neutral_false",
    "Verif.Eos.C149_solver_partial",
    "Verif.Eos.C149_solver_false",
    "Verif.Eos.C149_guess"
   ],
   "note": "Proved: sums, Boltzmann formulas, monotony, antiparticles, energy and pressure, strangeness neutrality with a sufficient condition for success, exact initial baryon potential. False: energy density vanishes when a single species is suppressed, factor 3 in place of 6 for massless species, search for the strangeness potential fails for an excess of antibaryons, no warning when the solver gets stuck in its first step. Spectral functions (account_for_width), sample_mass_thermal and the bracketing of the initial temperature are not modelled."
  },
  {
   "property": "C150",
   "status": "partial",
   "theorems": [
    "Verif.Td.C150_start",
    "Verif.Td.C150_event",
    "Verif.Td.C150_names",
    "Verif.Td.C150_binary",
    "Verif.Td.C150_text",
    "Verif.Td.C150_header_order_false",
    "Verif.Td.C150_open_failure_false",
    "Verif.Td.C150_both_formats_false",
    "Verif.Td.C150_density_name_false",
    "Verif.Td.C150_long_number_false"
   ],
   "note": "Proved for objects with one format, as the program creates them, when all files can be opened and the lattice of the outputs has the dimensions of the lattice of the header. Deviations proved as C150_*_false: the binary header has the cell sizes before the origin contrary to the user guide, a file which cannot be opened is not reported, an object with both formats writes text into the binary file, other density types get the name of the baryonic isospin, names are cut from ten million events. Conversion of numbers to text is not modelled."
  },
  {
   "property": "C151",
   "status": "partial",
   "theorems": [
    "Verif.Td.C151_names",
    "Verif.Td.C151_distinct",
    "Verif.Td.C151_extension",
    "Verif.Td.C151_contents",
    "Verif.Td.C151_runs",
    "Verif.Td.C151_fields_counter_false",
    "Verif.Td.C151_extension_false",
    "Verif.Td.C151_empty_false",
    "Verif.Td.C151_density",
    "Verif.Td.C151_tmn",
    "Verif.Td.C151_tmn_landau",
    "Verif.Td.C151_velocity",
    "Verif.Td.C151_fields",
    "Verif.Td.C151_fluid",
    "Verif.Td.C151_particles"
   ],
   "note": "Proved for ensembles with at least one particle, fewer than 100000 events and outputs per event on the lattice, and files that can be opened. Not true in general: the particle output of an empty ensemble asks for the time of a particle that does not exist (C151_empty_false), from event or output 100000 the extension of lattice files is cut (C151_extension_false), and the number of a field file counts through all events (C151_fields_counter_false). Words and numbers are tokens; the digits of printed numbers are not modelled."
  },
  {
   "property": "C152",
   "status": "partial",
   "theorems": [
    "Verif.Root.C152_lost_false",
    "Verif.Root.C152_ensemble_number_false",
    "Verif.Root.C152_empty_false",
    "Verif.Root.C152_interaction_ensemble_false",
    "Verif.Root.C152_initial_impact_false",
    "Verif.Root.C152_collision_overflow_false",
    "Verif.Root.C152_blocks_small",
    "Verif.Root.C152_blocks_count",
    "Verif.Root.C152_event",
    "Verif.Root.C152_run",
    "Verif.Root.C152_actions_ignored",
    "Verif.Root.C152_collisions",
    "Verif.Root.C152_initial",
    "Verif.Root.C152_autosave",
    "Verif.Root.C152_frequency"
   ],
   "note": "Proved: events, runs, collisions, initial conditions and saving, with an exact description of what is in the trees. Not true in general: when there are more particles than the buffer of 500000 holds, one particle of every 500001 is not written (C152_lost_false); with several ensembles outputs at the same time have different numbers (C152_ensemble_number_false) and interactions get the number of the last ensemble (C152_interaction_ensemble_false); outputs without particles leave no entry (C152_empty_false); entries of initial conditions have the impact parameter of the event before (C152_initial_impact_false); interactions with more particles than the buffer are undefined (C152_collision_overflow_false). The ROOT library is modelled by its contract."
  },
  {
   "property": "C153",
   "status": "partial",
   "theorems": [
    "Verif.Enums.C153_reads",
    "Verif.Enums.C153_round_trip",
    "Verif.Enums.C153_helpful",
    "Verif.Enums.C153_sets",
    "Verif.Enums.C153_all",
    "Verif.Enums.C153_sets_round_trip",
    "Verif.Enums.C153_quantities",
    "Verif.Enums.C153_density_false",
    "Verif.Enums.C153_level_stored",
    "Verif.Enums.C153_level_false",
    "Verif.Enums.C153_spin_message_false",
    "Verif.Enums.C153_density_message_false",
    "Verif.Enums.C153_unknown_after_all_false"
   ],
   "note": "Proved: the words of 19 enumerations and of the log levels, the four kinds of sets, the round trips and the messages. Not true of the code: the density types charge and strangeness are stored but cannot be read (C153_density_false); four of eight log levels are stored with leading blanks and then rejected (C153_level_false, exact description C153_level_stored); two messages are wrong (C153_spin_message_false, C153_density_message_false); unknown words after All are not noticed (C153_unknown_after_all_false)."
  },
  {
   "property": "C154",
   "status": "partial",
   "theorems": [
    "Verif.Tdo.C154_row",
    "Verif.Tdo.C154_columns",
    "Verif.Tdo.C154_header",
    "Verif.Tdo.C154_no_exception_partial",
    "Verif.Tdo.C154_run",
    "Verif.Tdo.C154_exception",
    "Verif.Tdo.C154_crash_false",
    "Verif.Tdo.C154_smearing_eckart_false"
   ],
   "note": "Proved: header, columns, every number of every line as a sum over all particles, runs, and that no output fails for densities without negative charges. Not true of the code: with net densities the current can be space-like and the output throws, leaving a broken line (C154_crash_false, C154_exception); the Eckart density depends on the smearing option (C154_smearing_eckart_false). Decimals cut off by the printf formats are not modelled."
  },
  {
   "property": "C155",
   "status": "partial",
   "theorems": [
    "Verif.Route.C155_experiment_spin",
    "Verif.Route.C155_box",
    "Verif.Route.C155_sphere_spin_false",
    "Verif.Route.C155_collider_spin_false",
    "Verif.Route.C155_jet_antiparticle_false",
    "Verif.Route.C155_density",
    "Verif.Route.C155_header_false"
   ],
   "note": "Proved for every file: scatterings, decays, box, list and the densities get the value in the file or the default. Not true of the code: the sphere and the nuclei always see spin interactions off (C155_sphere_spin_false, C155_collider_spin_false), the back-to-back antiparticle is forgotten (C155_jet_antiparticle_false) and the header of thermodynamics.dat never mentions participants (C155_header_false)."
  },
  {
   "property": "C156",
   "status": "partial",
   "theorems": [
    "Verif.Req.C156_accept_partial",
    "Verif.Req.C156_outputs",
    "Verif.Req.C156_distinct_partial",
    "Verif.Req.C156_hepmc_false",
    "Verif.Req.C156_binary_false",
    "Verif.Req.C156_refused_false",
    "Verif.Req.C156_rivet_again_false"
   ],
   "note": "Acceptance and distinctness are proved with the option Extended of dileptons, photons and initial conditions equal to the one of the collisions and without the pair HepMC and HepMC_asciiv3; without these the claim is false (C156_hepmc_false, C156_binary_false, C156_refused_false). The set of outputs, their order and files are proved without restriction."
  },
  {
   "property": "C157",
   "status": "partial",
   "theorems": [
    "Verif.Lat.C157_manual",
    "Verif.Lat.C157_automatic",
    "Verif.Lat.C157_list",
    "Verif.Lat.C157_collider",
    "Verif.Lat.C157_collider_covers",
    "Verif.Lat.C157_box",
    "Verif.Lat.C157_sphere",
    "Verif.Lat.C157_gaussian_fits",
    "Verif.Lat.C157_cubes_fit",
    "Verif.Lat.C157_overflow_false",
    "Verif.Lat.C157_zero_size_false"
   ],
   "note": "false for discrete and triangular smearing at high energies (C157_overflow_false) and for zero sizes (C157_zero_size_false); proved otherwise"
  },
  {
   "property": "C158",
   "status": "partial",
   "theorems": [
    "Verif.LatRun.C158_null_partial",
    "Verif.LatRun.C158_asked",
    "Verif.LatRun.C158_present_partial",
    "Verif.LatRun.C158_delayed",
    "Verif.LatRun.C158_derivative",
    "Verif.LatRun.C158_density_false",
    "Verif.LatRun.C158_fields_false",
    "Verif.LatRun.C158_isospin_false",
    "Verif.LatRun.C158_derivative_false",
    "Verif.LatRun.C158_null_false"
   ],
   "note": "false for the density, energy and fields of potentials and for two configurations with null pointers (C158_*_false); proved for everything else, and what is printed instead is characterised"
  },
  {
   "property": "C159",
   "status": "partial",
   "theorems": [
    "Verif.Ext.C159_add_partial",
    "Verif.Ext.C159_momentum",
    "Verif.Ext.C159_fits",
    "Verif.Ext.C159_remove_partial",
    "Verif.Ext.C159_ignored",
    "Verif.Ext.C159_twice",
    "Verif.Ext.C159_refused",
    "Verif.Ext.C159_back_partial",
    "Verif.Ext.C159_pauli_false",
    "Verif.Ext.C159_twins_false",
    "Verif.Ext.C159_neighbour_false",
    "Verif.Ext.C159_core_false",
    "Verif.Ext.C159_end_time_false",
    "Verif.Ext.C159_early_false",
    "Verif.Ext.C159_kaon_false"
   ],
   "note": "false in seven ways (C159_*_false): Pauli blocking, twins, neighbours, core particles, errors after changes, early interactions, kaons; proved otherwise"
  },
  {
   "property": "C160",
   "status": "partial",
   "theorems": [
    "Verif.Prog.C160_options",
    "Verif.Prog.C160_job",
    "Verif.Prog.C160_leave",
    "Verif.Prog.C160_cross_sections",
    "Verif.Prog.C160_modus",
    "Verif.Prog.C160_endtime_partial",
    "Verif.Prog.C160_endtime_false"
   ],
   "note": "All but the text of -e: C160_endtime_partial proves the shortcut for end times that are numbers, C160_endtime_false shows the sign is dropped and texts that are no numbers give 0."
  },
  {
   "property": "C161",
   "status": "partial",
   "theorems": [
    "Verif.Prog.C161_default",
    "Verif.Prog.C161_out_of_ids_false",
    "Verif.Prog.C161_no_overwrite",
    "Verif.Prog.C161_locked",
    "Verif.Prog.C161_copy",
    "Verif.Prog.C161_bad_input",
    "Verif.Prog.C161_tabulations_partial",
    "Verif.Prog.C161_tabulations_false",
    "Verif.Prog.C161_empty_false",
    "Verif.Prog.C161_widths_false"
   ],
   "note": "Everything is proved that holds; the violated parts have _false theorems: emptiness of the directory, -r ignoring lock and results, tabulations with a slash at the end, and the missing exception when all run numbers are used."
  },
  {
   "property": "C162",
   "status": "partial",
   "theorems": [
    "Verif.Prog.C162_config",
    "Verif.Prog.C162_line_endings",
    "Verif.Prog.C162_last_config",
    "Verif.Prog.C162_rerun",
    "Verif.Prog.C162_logging_false"
   ],
   "note": "The reproduction is proved for the whole simulated configuration; C162_logging_false shows that the copy lacks the section about logging."
  },
  {
   "property": "C163",
   "status": "partial",
   "theorems": [
    "Verif.Deform.C163_law",
    "Verif.Deform.C163_draw",
    "Verif.Deform.C163_range_partial",
    "Verif.Deform.C163_range_false",
    "Verif.Deform.C163_normalised",
    "Verif.Deform.C163_saturation",
    "Verif.Deform.C163_manual",
    "Verif.Deform.C163_manual_false",
    "Verif.Deform.C163_fermi_partial",
    "Verif.Deform.C163_fermi_false",
    "Verif.Deform.C163_accepted",
    "Verif.Deform.C163_parameters",
    "Verif.Deform.C163_overwritten_false",
    "Verif.Deform.C163_orientation",
    "Verif.Deform.C163_density",
    "Verif.Deform.C163_radius"
   ],
   "note": "Proved: the density is the documented one with the spherical harmonics of an independent specification (Legendre polynomials), the mean of the radius over the sphere, acceptance of the section iff documented, the parameters in use, normalisation for automatic deformation, law of the accepted positions, Euler rotation as product of three rotations. Not true of the code, with witnesses: the sampled range R/d + R d cuts the nucleus for some parameters, a given saturation density is overwritten for automatic deformation, manual deformation keeps the saturation density of the sphere, and the Fermi momenta of a rotated nucleus use the density of the unrotated one."
  },
  {
   "property": "C164",
   "status": "partial",
   "theorems": [
    "Verif.Chem.C164_density",
    "Verif.Chem.C164_monotone",
    "Verif.Chem.C164_unique",
    "Verif.Chem.C164_bracket",
    "Verif.Chem.C164_accurate",
    "Verif.Chem.C164_condensate",
    "Verif.Chem.C164_dilute_false",
    "Verif.Chem.C164_unconverged_false",
    "Verif.Chem.C164_search",
    "Verif.Chem.C164_species",
    "Verif.Chem.C164_uniform_false",
    "Verif.Chem.C164_returned",
    "Verif.Chem.C164_refused"
   ],
   "note": "Proved with exact integrals and a root finder that is any transition system with a position: the substituted integral is the density of an ideal gas, strict monotony, existence and uniqueness of the chemical potential (bosons up to the critical density), exactly which values are returned and which errors are reported, bracketing by the tolerance, no result for a condensate beyond the tolerance, soundness of the search for the maximum. Not true of the code, with witnesses: the precision is absolute, so a dilute gas may get a density wrong by any factor; a root finder that does not converge leaves 0 as the result, for the chemical potential (accepted if the density is within 0.001 per fm³) and for the momentum of the maximum (momenta are then uniform up to 10 GeV)."
  },
  {
   "property": "C165",
   "status": "partial",
   "theorems": [
    "Verif.Cell.C165_converges",
    "Verif.Cell.C165_accuracy",
    "Verif.Cell.C165_unique_fluid",
    "Verif.Cell.C165_charge_false",
    "Verif.Cell.C165_bounds",
    "Verif.Cell.C165_fluid_partial",
    "Verif.Cell.C165_threshold",
    "Verif.Cell.C165_dilute",
    "Verif.Cell.C165_timelike",
    "Verif.Cell.C165_sums"
   ],
   "note": "Ideal fluid decomposition, bounds, threshold, convergence, accuracy and uniqueness proved; the charge density is not transformed to the rest frame (C165_charge_false)."
  },
  {
   "property": "C166",
   "status": "partial",
   "theorems": [
    "Verif.Cell.C166_removed",
    "Verif.Cell.C166_cells",
    "Verif.Cell.C166_cells_exist",
    "Verif.Cell.C166_choice",
    "Verif.Cell.C166_chosen",
    "Verif.Cell.C166_probability",
    "Verif.Cell.C166_zero_false",
    "Verif.Cell.C166_numbers",
    "Verif.Cell.C166_mode_partial",
    "Verif.Cell.C166_mode_false",
    "Verif.Cell.C166_position",
    "Verif.Cell.C166_momentum",
    "Verif.Cell.C166_flow"
   ],
   "note": "Removal rule, cells, choice with its probability, positions and momenta proved; a random number 0 reads index -1 (C166_zero_false) and mode sampling ignores the chemical potential of the charge (C166_mode_false)."
  },
  {
   "property": "C167",
   "status": "partial",
   "theorems": [
    "Verif.ThMass.C167_stable",
    "Verif.ThMass.C167_envelope",
    "Verif.ThMass.C167_range",
    "Verif.ThMass.C167_density",
    "Verif.ThMass.C167_law_partial",
    "Verif.ThMass.C167_round",
    "Verif.ThMass.C167_law_false"
   ],
   "note": "Law of one round proved when the envelope covers the ratio; C167_law_false: a narrow peak missed by the search is never returned in the first round. The Bessel function and the spectral function are parameters."
  },
  {
   "property": "C168",
   "status": "partial",
   "theorems": [
    "Verif.Str.C168_others",
    "Verif.Str.C168_leading",
    "Verif.Str.C168_ends_partial",
    "Verif.Str.C168_ends_false",
    "Verif.Str.C168_one",
    "Verif.Str.C168_two",
    "Verif.Str.C168_flavour",
    "Verif.Str.C168_total"
   ],
   "note": "Conservation laws, mass shells, choice of the function and the ends of a remaining string with enough transverse mass are proved; the ends fail when the transverse masses of the ends exceed that of the string (C168_ends_false). The contract of PYTHIA (a hadron combined from two flavours has their sum) is a hypothesis of the flavour part."
  },
  {
   "property": "C169",
   "status": "partial",
   "theorems": [
    "Verif.Rem.C169_shift",
    "Verif.Rem.C169_remake_partial",
    "Verif.Rem.C169_total_partial",
    "Verif.Rem.C169_rest_false",
    "Verif.Rem.C169_slope",
    "Verif.Rem.C169_factor"
   ],
   "note": "Proved for hadrons that do not all have the same rapidity; for equal rapidities the transverse momentum is lost (C169_rest_false)."
  },
  {
   "property": "C170",
   "status": "proved",
   "theorems": [
    "Verif.Ann.C170_pair",
    "Verif.Ann.C170_weights",
    "Verif.Ann.C170_strings",
    "Verif.Ann.C170_same"
   ],
   "note": "Codes with a top quark are outside the hypotheses (the code counts five flavours only); the fragmentation is an oracle."
  },
  {
   "property": "C171",
   "status": "proved",
   "theorems": [
    "Verif.Cons.C171_totals",
    "Verif.Cons.C171_order",
    "Verif.Cons.C171_lines",
    "Verif.Cons.C171_empty",
    "Verif.Cons.C171_relative",
    "Verif.Cons.C171_run",
    "Verif.Cons.C171_unchecked"
   ],
   "note": "Tolerances of the comparison as in C59; rounding of the sums is not modelled."
  },
  {
   "property": "C172",
   "status": "proved",
   "theorems": [
    "Verif.Spl.C172_build",
    "Verif.Spl.C172_value",
    "Verif.Spl.C172_nodes",
    "Verif.Spl.C172_constant",
    "Verif.Spl.C172_diff",
    "Verif.Spl.C172_weight"
   ],
   "note": "The spline of GSL is an oracle with its documented contract; the tabulated numbers are not in the model."
  },
  {
   "property": "C173",
   "status": "partial",
   "theorems": [
    "Verif.Quad.C173_interval",
    "Verif.Quad.C173_rectangle",
    "Verif.Quad.C173_limits",
    "Verif.Quad.C173_returned_partial",
    "Verif.Quad.C173_code",
    "Verif.Quad.C173_returned_false"
   ],
   "note": "False for negative integrals whose error meets the relative precision only (C173_returned_false); everything else is proved."
  },
  {
   "property": "C174",
   "status": "partial",
   "theorems": [
    "Verif.Hard.C174_event",
    "Verif.Hard.C174_consistent",
    "Verif.Hard.C174_split",
    "Verif.Hard.C174_neutral",
    "Verif.Hard.C174_identified",
    "Verif.Hard.C174_junction",
    "Verif.Hard.C174_ends_false"
   ],
   "note": "the search need not end for inconsistent colours (C174_ends_false)"
  },
  {
   "property": "C175",
   "status": "partial",
   "theorems": [
    "Verif.Resc.C175_ends",
    "Verif.Resc.C175_result",
    "Verif.Resc.C175_frame",
    "Verif.Resc.C175_heavy_false"
   ],
   "note": "heavier partons are not refused: the loop does not end (C175_heavy_false)"
  },
  {
   "property": "C176",
   "status": "partial",
   "theorems": [
    "Verif.Glue.C176_momentum",
    "Verif.Glue.C176_charges",
    "Verif.Glue.C176_enough",
    "Verif.Glue.C176_shell",
    "Verif.Glue.C176_energy_partial",
    "Verif.Glue.C176_energy_false",
    "Verif.Glue.C176_gluon_false"
   ],
   "note": "energy restored only if the replacement changes it (C176_energy_false); a gluon may be missed (C176_gluon_false)"
  },
  {
   "property": "C177",
   "status": "partial",
   "theorems": [
    "Verif.Iss.C177_list",
    "Verif.Iss.C177_printed",
    "Verif.Iss.C177_weights",
    "Verif.Iss.C177_decays_partial",
    "Verif.Iss.C177_decays_false"
   ],
   "note": "decays into three particles lose the third (C177_decays_false)"
  },
  {
   "property": "C178",
   "status": "partial",
   "theorems": [
    "Verif.Soft.C178_outcome",
    "Verif.Soft.C178_last_false",
    "Verif.Soft.C178_momentum",
    "Verif.Soft.C178_single",
    "Verif.Soft.C178_accepted",
    "Verif.Soft.C178_direction"
   ],
   "note": "all parts proved except that a success of the last of the 10000 attempts is discarded (C178_last_false); conservation in the fragmentation of a string is a hypothesis (see C168, C169)"
  },
  {
   "property": "C179",
   "status": "partial",
   "theorems": [
    "Verif.Fpe.C179_scoped",
    "Verif.Fpe.C179_restored",
    "Verif.Fpe.C179_silent",
    "Verif.Fpe.C179_mask",
    "Verif.Fpe.C179_unsupported",
    "Verif.Fpe.C179_warning",
    "Verif.Fpe.C179_setup",
    "Verif.Fpe.C179_keep_false",
    "Verif.Fpe.C179_nested_false"
   ],
   "note": "Proved: restoration for all nestings and control flows, silence of guards without mask, exact traps of masks, set-up. C179_keep_false and C179_nested_false: masks enable traps that were off before."
  },
  {
   "property": "C180",
   "status": "partial",
   "theorems": [
    "Verif.Log.C180_longest",
    "Verif.Log.C180_level",
    "Verif.Log.C180_printed",
    "Verif.Log.C180_written_false",
    "Verif.Log.C180_written",
    "Verif.Log.C180_setup",
    "Verif.Log.C180_error",
    "Verif.Log.C180_used"
   ],
   "note": "Proved: levels, names, errors and used keys of the set-up for every configuration, what is printed. C180_written_false: four of the eight levels cannot be read back after SMASH wrote them."
  },
  {
   "property": "C181",
   "status": "partial",
   "theorems": [
    "Verif.Ang.C181_power",
    "Verif.Ang.C181_transfer_range",
    "Verif.Ang.C181_cos_range",
    "Verif.Ang.C181_final",
    "Verif.Ang.C181_transfer_partial",
    "Verif.Ang.C181_slope",
    "Verif.Ang.C181_slope_values",
    "Verif.Ang.C181_symmetric",
    "Verif.Ang.C181_elastic",
    "Verif.Ang.C181_resonance",
    "Verif.Ang.C181_isotropic",
    "Verif.Ang.C181_threshold_false",
    "Verif.Ang.C181_lab_false"
   ],
   "note": "All branches, ranges, symmetry and conservation proved. C181_transfer_partial leaves out incoming momenta with a transverse part that is non-zero but below 1e-6 GeV. C181_lab_false and C181_threshold_false show that the code does not do what is documented for the lab momentum of other elastic pairs and at threshold."
  },
  {
   "property": "C182",
   "status": "partial",
   "theorems": [
    "Verif.Tsc.C182_cycles",
    "Verif.Tsc.C182_bounds",
    "Verif.Tsc.C182_printed",
    "Verif.Tsc.C182_correct_partial",
    "Verif.Tsc.C182_leading_false",
    "Verif.Tsc.C182_empty_false",
    "Verif.Tsc.C182_layout"
   ],
   "note": "Counter, bounds, layout and the number shown proved; correct for counts whose number of digits is not 1, 4, 7, ...; C182_leading_false and C182_empty_false show that the others are printed wrongly."
  },
  {
   "property": "C183",
   "status": "partial",
   "theorems": [
    "Verif.Pol.C183_off",
    "Verif.Pol.C183_elastic",
    "Verif.Pol.C183_diffractive",
    "Verif.Pol.C183_fresh",
    "Verif.Pol.C183_lambda_false",
    "Verif.Pol.C183_flip",
    "Verif.Pol.C183_orthogonal_false",
    "Verif.Pol.C183_decay"
   ],
   "note": "Squared spin vectors, fresh spin vectors and the switched-off case proved for all processes; C183_lambda_false (the spin of a Lambda is never handed to a Sigma*) and C183_orthogonal_false (orthogonality lost in elastic collisions) show that the rest of the property does not hold."
  },
  {
   "property": "C184",
   "status": "partial",
   "theorems": [
    "Verif.Riv.C184_crash",
    "Verif.Riv.C184_complete",
    "Verif.Riv.C184_exception_false",
    "Verif.Riv.C184_format",
    "Verif.Riv.C184_rivet",
    "Verif.Riv.C184_rivet_empty_false",
    "Verif.Riv.C184_setup",
    "Verif.Riv.C184_select",
    "Verif.Riv.C184_weights",
    "Verif.Riv.C184_comma_false",
    "Verif.Riv.C184_log_name"
   ],
   "note": "Crash points, complete runs, the order of the calls of Rivet and its set-up proved; C184_exception_false, C184_rivet_empty_false and C184_comma_false show where the code does not do what is expected."
  },
  {
   "property": "C185",
   "status": "proved",
   "theorems": [
    "Verif.Ndh.C185_partition",
    "Verif.Ndh.C185_outcome",
    "Verif.Ndh.C185_momentum",
    "Verif.Ndh.C185_unknown_false"
   ],
   "note": "The loop over the event, the strings and the acceptance for all records and results of PYTHIA; order of hadrons within a string and formation times are not modelled here. Code violates the warning 'start over': C185_unknown_false."
  },
  {
   "property": "C186",
   "status": "partial",
   "theorems": [
    "Verif.Icb.C186_balance",
    "Verif.Icb.C186_no_alarm",
    "Verif.Icb.C186_alarm",
    "Verif.Icb.C186_counters",
    "Verif.Icb.C186_differences",
    "Verif.Icb.C186_warning",
    "Verif.Icb.C186_unformed",
    "Verif.Icb.C186_outside_false",
    "Verif.Icb.C186_discarded_false"
   ],
   "note": "Balance and absence of the exception are proved for all histories in which decays of stable particles and changes from outside conserve energy and potentials do not affect thresholds; false otherwise (C186_outside_false). Energies are exact. Warnings and counters for all histories, C186_discarded_false for the share of discarded interactions."
  },
  {
   "property": "C187",
   "status": "proved",
   "theorems": [
    "Verif.Dal.C187_closed",
    "Verif.Dal.C187_radicand",
    "Verif.Dal.C187_nonneg",
    "Verif.Dal.C187_end",
    "Verif.Dal.C187_unsupported",
    "Verif.Dal.C187_values",
    "Verif.Dal.C187_light_false"
   ],
   "note": "All cases of diff_width over exact reals; partial widths and form factors are arbitrary non-negative parameters. C187_light_false: no check at the lower end, callers stay above."
  }
 ]
}