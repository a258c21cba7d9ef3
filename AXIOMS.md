# Axioms of the property theorems

Generated by `tools/axioms.py` from `#print axioms`.

## none

* Verif.Pdg.C15_W_is_charged
* Verif.Pdg.C15_kaon_has_no_negative
* Verif.Sha.C24_initial_value
* Verif.Sha.C24_primes
* Verif.Text.C27_join_drops_empty
* Verif.Cg.C39_no_duplicates
* Verif.Frag.C90_charge_false
* Verif.Coll.C96_last_line_false
* Verif.Hep.C147_neutron_false
* Verif.Root.C152_interaction_ensemble_false
* Verif.Enums.C153_density_false
* Verif.Enums.C153_level_stored
* Verif.Enums.C153_level_false
* Verif.LatRun.C158_density_false
* Verif.LatRun.C158_fields_false
* Verif.LatRun.C158_isospin_false
* Verif.LatRun.C158_derivative_false
* Verif.LatRun.C158_null_false
* Verif.Log.C180_printed
* Verif.Log.C180_written_false
* Verif.Log.C180_written

## propext

* Verif.Pdg.C17_from_decimal_boundary
* Verif.Sha.C24_round_constants
* Verif.Files.C25_exclusive
* Verif.Files.C25_acquire_twice
* Verif.Files.C25_only_owner_removes
* Verif.Files.C25_owner_removes
* Verif.Files.C25_crash
* Verif.Text.C27_remove_empty
* Verif.Text.C27_split
* Verif.Text.C27_fill_too_wide
* Verif.Text.C28_carriage_return
* Verif.Act.C35_decay
* Verif.Act.C35_replace
* Verif.Config.C40_absent
* Verif.Config.C40_twice_with_default
* Verif.Config.C40_empty_key_lost
* Verif.Config.C40_repeated_key
* Verif.Config.C40_below_sequence
* Verif.Config.C41_empty_map
* Verif.Config.C41_empty_text
* Verif.Config.C41_sequence_section
* Verif.Exp.C50_second_event_false
* Verif.Bin.C52_initial_conditions_false
* Verif.Kin.C59_lt
* Verif.Actions.C61_begin_partial
* Verif.Pdg.C62_kaon_inconsistent
* Verif.Config.C72_extract_errors
* Verif.Frag.C90_others
* Verif.Coll.C96_labels_false
* Verif.Pot.C131_own
* Verif.Pot.C131_shared_false
* Verif.Em.C139_pairs
* Verif.Eos.C148_check_small
* Verif.Root.C152_actions_ignored
* Verif.Root.C152_autosave
* Verif.Enums.C153_round_trip
* Verif.Enums.C153_unknown_after_all_false
* Verif.Route.C155_box
* Verif.Route.C155_jet_antiparticle_false
* Verif.Prog.C160_options
* Verif.Prog.C160_modus
* Verif.Prog.C161_tabulations_partial
* Verif.Prog.C161_tabulations_false
* Verif.Iss.C177_decays_false

## Quot.sound, propext

* Verif.Actions.C07_pop_is_earliest
* Verif.Actions.C07_pop_throws_iff_empty
* Verif.Actions.C07_earliest_time
* Verif.Actions.C07_nothing_lost
* Verif.Actions.C07_drain_sorted
* Verif.Clock.C09_tick_partial
* Verif.Clock.C09_advance_partial
* Verif.Pdg.C15_involution
* Verif.Sha.C24_hex
* Verif.Text.C27_trim
* Verif.Text.C27_trim_idempotent
* Verif.Text.C27_join
* Verif.Text.C27_split_join
* Verif.Text.C27_fill_partial
* Verif.Text.C27_columns
* Verif.Act.C32_never_fails
* Verif.Act.C32_kept
* Verif.Act.C35_history
* Verif.Decay.C38_half_integer
* Verif.Decay.C38_rejects_allowed
* Verif.Cg.C39_memo
* Verif.Config.C40_value
* Verif.Tab.C43_roundtrip
* Verif.Tab.C43_truncated
* Verif.Tab.C43_history
* Verif.Exp.C48_fixed
* Verif.Exp.C48_minimum
* Verif.Exp.C49_ids
* Verif.Exp.C49_intervals
* Verif.Exp.C49_wrap_false
* Verif.Exp.C50_first_event_partial
* Verif.Exp.C50_same_beam_partial
* Verif.Exp.C50_later_particles_false
* Verif.Lst.C54_particles
* Verif.Kin.C59_le_wrong
* Verif.Actions.C61_begin_not_earliest
* Verif.Actions.C61_begin_is_latest_of_two
* Verif.Config.C73_defined_partial
* Verif.Config.C73_short_key_ub
* Verif.Bin.C76_accepted
* Verif.Rand.C81_nonnegative
* Verif.Frag.C85_diquark_back
* Verif.Frag.C86_gluon_false
* Verif.Xs.C100_no_process_false
* Verif.Fluid.C133_inherited
* Verif.Fluid.C133_multi_false
* Verif.Fluid.C133_gate
* Verif.Fluid.C133_no_core
* Verif.Fluid.C133_uninitialised
* Verif.Fluid.C133_garbage
* Verif.Hep.C147_final
* Verif.Hep.C147_status
* Verif.Hep.C147_beams
* Verif.Hep.C147_final_only
* Verif.Hep.C147_errors
* Verif.Hep.C147_box_false
* Verif.Td.C150_start
* Verif.Root.C152_ensemble_number_false
* Verif.Root.C152_initial_impact_false
* Verif.Root.C152_blocks_small
* Verif.Root.C152_blocks_count
* Verif.Prog.C160_endtime_false
* Verif.Prog.C161_out_of_ids_false
* Verif.Prog.C162_logging_false
* Verif.Iss.C177_list
* Verif.Iss.C177_weights
* Verif.Iss.C177_decays_partial
* Verif.Soft.C178_outcome
* Verif.Soft.C178_last_false
* Verif.Fpe.C179_scoped
* Verif.Fpe.C179_restored
* Verif.Fpe.C179_silent
* Verif.Fpe.C179_unsupported
* Verif.Fpe.C179_warning
* Verif.Fpe.C179_keep_false
* Verif.Fpe.C179_nested_false
* Verif.Log.C180_longest
* Verif.Tsc.C182_cycles
* Verif.Riv.C184_weights
* Verif.Ndh.C185_partition
* Verif.Icb.C186_unformed

## Classical.choice, Quot.sound, propext

* Verif.Particles.C01_ids_unique
* Verif.Particles.C01_ids_fresh
* Verif.Particles.C02_contents
* Verif.Particles.C03_no_fault
* Verif.Particles.C03_iteration_in_bounds
* Verif.Particles.C04_valid_iff
* Verif.Particles.C04_rejected_for_ever
* Verif.Particles.C04_reset_revives
* Verif.Particles.C05_replace
* Verif.Particles.C06_is_empty_false
* Verif.Particles.C06_is_empty_partial
* Verif.Clock.C08_times
* Verif.Clock.C08_monotone
* Verif.Clock.C08_reaches_end
* Verif.Clock.C08_durations_sum
* Verif.Clock.C08_tiny_step_stalls
* Verif.Clock.C09_next_time_partial
* Verif.Clock.C09_next_time_overflows
* Verif.Clock.C09_advance_by_overflows
* Verif.Clock.C09_negative_advance_overflows
* Verif.Clock.C10_sorted
* Verif.Clock.C10_visits_in_order
* Verif.Grid.C11_each_particle_in_one_cell
* Verif.Grid.C11_cell_contains_position
* Verif.Grid.C11_normal_never_out_of_bounds
* Verif.Grid.C11_cell_count_overflows
* Verif.Grid.C12_pairs_exactly_once
* Verif.Grid.C12_calls_in_bounds
* Verif.Grid.C13_pairs_exactly_once
* Verif.Grid.C13_image_unique
* Verif.Grid.C13_calls_in_bounds
* Verif.Grid.C13_largest_cells_miss_pair
* Verif.Pdg.C14_round_trip_int
* Verif.Pdg.C14_round_trip_uint
* Verif.Pdg.C14_round_trip_string_partial
* Verif.Pdg.C14_distinct_partial
* Verif.Pdg.C14_parsers_agree_partial
* Verif.Pdg.C14_hex_collision
* Verif.Pdg.C14_hex_unreadable
* Verif.Pdg.C15_opposite
* Verif.Pdg.C15_neutral_partial
* Verif.Pdg.C15_opposite_number_partial
* Verif.Pdg.C16_valence
* Verif.Pdg.C16_gell_mann_nishijima
* Verif.Pdg.C16_nucleus
* Verif.Pdg.C17_accepts_only_numbers
* Verif.Pdg.C17_same_number_partial
* Verif.Pdg.C17_wraps
* Verif.Pdg.C17_nucleus_wraps
* Verif.Lattice.C18_index_bijection
* Verif.Lattice.C18_neighbours
* Verif.Lattice.C18_opposite_steps
* Verif.Lattice.C19_rectangle
* Verif.Lattice.C19_cube
* Verif.Lattice.C19_rectangle_periodic_partial
* Verif.Lattice.C19_far_cube
* Verif.Lattice.C20_affine
* Verif.Lattice.C20_periodic
* Verif.Lattice.C20_rejects
* Verif.Lattice.C20_four_gradient
* Verif.Lattice.C21_resize_partial
* Verif.Lattice.C21_new_cells_break_storage
* Verif.Box.C22_enforce
* Verif.Box.C22_impose
* Verif.Box.C22_far_outside
* Verif.Box.C23_wall_crossing_partial
* Verif.Box.C23_one_per_particle
* Verif.Box.C23_slow_particle
* Verif.Sha.C24_chunks
* Verif.Sha.C24_calculate
* Verif.Files.C25_acquire_result
* Verif.Files.C26_final_name_complete_partial
* Verif.Files.C26_destructor
* Verif.Files.C26_not_before_destructor
* Verif.Files.C26_io_error
* Verif.Text.C27_remove_substr
* Verif.Text.C27_split_covers
* Verif.Text.C27_join_split
* Verif.Text.C27_fill_both
* Verif.Text.C28_lines
* Verif.Text.C28_meaningful_partial
* Verif.Kin.C29_isometry
* Verif.Kin.C29_inverse
* Verif.Kin.C29_rest
* Verif.Kin.C29_linear
* Verif.Kin.C29_not_subluminal
* Verif.Kin.C30_symmetric
* Verif.Kin.C30_energy_balance
* Verif.Kin.C30_unique
* Verif.Kin.C30_below_partial
* Verif.Kin.C30_far_below
* Verif.Kin.C31_fixed_target
* Verif.Kin.C31_two_beams
* Verif.Kin.C31_Ekin_two_beams_partial
* Verif.Kin.C31_Ekin_two_beams_wrong
* Verif.Kin.C31_plab_two_beams_value
* Verif.Kin.C31_plab_two_beams_partial
* Verif.Kin.C31_plab_two_beams_wrong
* Verif.Kin.C31_plab_inverse
* Verif.Kin.C31_s_inverse
* Verif.Act.C32_probability
* Verif.Act.C32_rescaled
* Verif.Act.C33_check
* Verif.Act.C33_violation
* Verif.Act.C34_two_body
* Verif.Act.C34_many_body
* Verif.Act.C34_to_lab
* Verif.Act.C35_defined
* Verif.Act.C36_range
* Verif.Act.C36_monotone
* Verif.Act.C36_ends
* Verif.Decay.C37_loaded
* Verif.Decay.C37_merge
* Verif.Decay.C37_add_mode_defined
* Verif.Decay.C37_add_mode_rejects
* Verif.Decay.C37_renormalize
* Verif.Decay.C38_line
* Verif.Decay.C38_three_multiplets_wrong
* Verif.Decay.C38_accepted_couples
* Verif.Decay.C38_couples_accepted_partial
* Verif.Decay.C38_three_accepted_couples
* Verif.Decay.C38_three_couples_accepted_partial
* Verif.Cg.C39_table
* Verif.Cg.C39_complete
* Verif.Cg.C39_hash_injective
* Verif.Cg.C39_calculate
* Verif.Cg.C39_three_body_unique
* Verif.Cg.C39_total_isospins
* Verif.Cg.C39_reversible
* Verif.Cg.C39_odd_range_diverges
* Verif.Config.C40_history
* Verif.Config.C40_twice_partial
* Verif.Config.C40_destructor
* Verif.Config.C41_merge
* Verif.Config.C41_override
* Verif.Tab.C42_between
* Verif.Tab.C42_grid_point
* Verif.Tab.C42_bounds
* Verif.Tab.C42_below
* Verif.Tab.C42_above_partial
* Verif.Tab.C42_far_ub
* Verif.Tab.C42_step_partial
* Verif.Tab.C42_few
* Verif.Tab.C42_empty_ub
* Verif.Tab.C44_average
* Verif.Tab.C44_dedup
* Verif.Tab.C44_dedup_sorted
* Verif.Tab.C45_duplicates
* Verif.Tab.C45_between
* Verif.Tab.C45_points
* Verif.Tab.C45_defined
* Verif.Tab.C45_no_points
* Verif.Exp.C46_timestep
* Verif.Exp.C46_event
* Verif.Exp.C47_uniform
* Verif.Exp.C47_timestep_independent
* Verif.Exp.C47_custom
* Verif.Exp.C47_two_calls_false
* Verif.Exp.C47_second_event_false
* Verif.Exp.C47_final_label_false
* Verif.Exp.C48_max_events
* Verif.Exp.C49_ids_unique
* Verif.Exp.C49_guard
* Verif.Therm.C51_bf_partial
* Verif.Therm.C51_bf_ends
* Verif.Therm.C51_hadrons_unit
* Verif.Therm.C51_negative_number_false
* Verif.Therm.C51_empty_class_false
* Verif.Therm.C51_mode
* Verif.Bin.C52_readable
* Verif.Bin.C52_throws
* Verif.Scat.C53_geometric_time
* Verif.Scat.C53_slow_pair_false
* Verif.Scat.C53_candidates
* Verif.Scat.C53_cell
* Verif.Scat.C53_neighbors
* Verif.Scat.C53_surrounding
* Verif.Scat.C53_moving_momentum
* Verif.Scat.C53_geometric
* Verif.Scat.C53_covariant
* Verif.Scat.C53_stochastic
* Verif.Scat.C53_multi
* Verif.Lst.C54_single
* Verif.Lst.C54_numbered
* Verif.Lst.C54_plain_partial
* Verif.Lst.C54_short_plain_false
* Verif.Rand.C55_expo_range
* Verif.Rand.C55_expo_accepts
* Verif.Rand.C55_expo_empty_false
* Verif.Rand.C55_expo_bounds_false
* Verif.Rand.C55_power
* Verif.Rand.C55_power_law
* Verif.Rand.C55_power_mixed_false
* Verif.Rand.C55_power_zero_false
* Verif.Rand.C55_cauchy
* Verif.Rand.C55_cauchy_zero_width
* Verif.Rand.C55_beta_a0_accepts
* Verif.Rand.C55_beta_a0_range
* Verif.Rand.C55_beta_a0_one_false
* Verif.Rand.C55_beta_a0_nonpos
* Verif.Rand.C55_exponential
* Verif.Rand.C55_beta
* Verif.Cast.C56_exact_or_rejected
* Verif.Cast.C56_never_changes
* Verif.Cast.C56_double
* Verif.Cast.C56_double_64_false
* Verif.Types.C57_created
* Verif.Types.C57_contents
* Verif.Types.C57_find
* Verif.Types.C57_antiparticle
* Verif.Types.C57_second_call_false
* Verif.Stream.C58_straight
* Verif.Stream.C58_steps
* Verif.Stream.C58_back
* Verif.Stream.C58_back_forward
* Verif.Stream.C58_back_frozen_false
* Verif.Stream.C58_returned
* Verif.Kin.C59_le_partial
* Verif.Kin.C59_eq_symm
* Verif.Kin.C59_eq_refl
* Verif.Kin.C59_eq_meaning
* Verif.Kin.C59_eq_not_transitive
* Verif.Stream.C60_exact_partial
* Verif.Stream.C60_cuts
* Verif.Stream.C60_once_partial
* Verif.Stream.C60_frozen_false
* Verif.Stream.C60_long_step_false
* Verif.Stream.C60_boundary_false
* Verif.Pdg.C62_content_partial
* Verif.Pdg.C63_classes
* Verif.Pdg.C64_antiparticle_of_partial
* Verif.Pdg.C64_nuclei_confused
* Verif.Lattice.C65_value_at
* Verif.Lattice.C65_value_at_periodic_partial
* Verif.Lattice.C65_far_point
* Verif.Lattice.C66_nearest_partial
* Verif.Lattice.C66_outside_point
* Verif.Kin.C67_rotations
* Verif.Kin.C67_z_axis_partial
* Verif.Kin.C67_tiny_vector
* Verif.Kin.C67_angles_in_range
* Verif.Kin.C67_set_phi
* Verif.Kin.C67_unit
* Verif.Kin.C67_add_to_theta
* Verif.Kin.C67_add_to_theta_rejects
* Verif.Kin.C67_add_to_theta_reverse
* Verif.Kin.C67_rejected_value_kept
* Verif.Kin.C68_center_of_velocity
* Verif.Kin.C68_fixed_target
* Verif.Kin.C68_t_range
* Verif.Act.C69_spin_norm_partial
* Verif.Act.C69_not_orthogonal
* Verif.Act.C69_right_direction
* Verif.Act.C70_partial_weight_partial
* Verif.Act.C70_parametrized
* Verif.Decay.C71_charge_violated
* Verif.Decay.C71_mode_before_section
* Verif.Decay.C71_loaded_partial
* Verif.Config.C72_extract
* Verif.Config.C72_set_value
* Verif.Config.C72_remove_all_but_one
* Verif.Config.C73_full
* Verif.Config.C73_short
* Verif.Tab.C74_spline
* Verif.Tab.C74_trilinear
* Verif.Therm.C75_velocity
* Verif.Therm.C75_momentum_partial
* Verif.Therm.C75_heavy_false
* Verif.Bin.C76_binary_line
* Verif.Bin.C76_text_line
* Verif.Bin.C76_header_lines
* Verif.Bin.C76_chunks
* Verif.Scat.C77_transverse
* Verif.Scat.C77_transverse_slow
* Verif.Scat.C77_covariant
* Verif.Scat.C77_same_distance
* Verif.Scat.C77_covariant_time
* Verif.Scat.C77_relative_velocity
* Verif.Scat.C78_range
* Verif.Scat.C78_ends
* Verif.Scat.C78_monotone
* Verif.Stream.C79_hubble_partial
* Verif.Stream.C79_exponential_false
* Verif.Stream.C79_step
* Verif.Types.C80_multiplets
* Verif.Types.C80_states
* Verif.Types.C80_names
* Verif.Rand.C81_uniform
* Verif.Rand.C82_upper
* Verif.Rand.C82_lower_partial
* Verif.Rand.C82_lower_false
* Verif.Lst.C83_on_shell
* Verif.Lst.C83_refused
* Verif.Lst.C83_nan
* Verif.Lst.C83_negative_energy_false
* Verif.Lst.C84_earliest
* Verif.Lst.C84_together
* Verif.Lst.C84_empty
* Verif.Lst.C84_validation
* Verif.Frag.C85_diquark
* Verif.Frag.C85_ends
* Verif.Frag.C85_nucleon
* Verif.Frag.C86_excess
* Verif.Frag.C86_rearrange
* Verif.Frag.C86_restored
* Verif.Frag.C86_terminates
* Verif.Frag.C86_refused
* Verif.Frag.C86_split
* Verif.Frag.C86_gluon
* Verif.Frag.C87_resonance
* Verif.Frag.C87_found
* Verif.Frag.C87_closest_partial
* Verif.Frag.C87_closest_false
* Verif.Frag.C87_leading
* Verif.Frag.C88_leading
* Verif.Frag.C88_distance
* Verif.Frag.C88_range
* Verif.Frag.C89_basis
* Verif.Frag.C89_two_strings
* Verif.Frag.C89_transfer
* Verif.Frag.C89_quarks
* Verif.Frag.C89_single
* Verif.Frag.C89_regroup
* Verif.Frag.C89_fragments
* Verif.Frag.C89_formation
* Verif.Frag.C89_final_two
* Verif.Frag.C89_fraction
* Verif.Frag.C90_numbers
* Verif.Frag.C90_flavour
* Verif.Frag.C90_sign
* Verif.Coll.C91_counts
* Verif.Coll.C91_arrange
* Verif.Coll.C91_fermi
* Verif.Coll.C91_fermi_draw
* Verif.Coll.C91_boost
* Verif.Coll.C92_velocities
* Verif.Coll.C92_options_partial
* Verif.Coll.C92_two_beams_partial
* Verif.Coll.C92_total_energies_false
* Verif.Coll.C92_below_mass_false
* Verif.Coll.C92_one_option
* Verif.Coll.C92_total_energy
* Verif.Coll.C93_start
* Verif.Coll.C93_at_rest_false
* Verif.Coll.C94_quadratic
* Verif.Coll.C94_quadratic_reversed
* Verif.Coll.C94_custom_partial
* Verif.Coll.C94_assertion_false
* Verif.Coll.C95_tetrahedron
* Verif.Coll.C95_clusters
* Verif.Coll.C96_events_partial
* Verif.Coll.C96_wrong_numbers
* Verif.Coll.C97_densities
* Verif.Coll.C97_weights
* Verif.Coll.C97_woods_saxon
* Verif.Coll.C97_radius
* Verif.Multi.C98_codes
* Verif.Multi.C98_reactions
* Verif.Multi.C98_conserved
* Verif.Multi.C98_no_protons_false
* Verif.Multi.C99_three_to_two
* Verif.Multi.C99_four_to_two
* Verif.Multi.C99_five_to_two
* Verif.Multi.C99_three_to_one
* Verif.Multi.C99_phi4_positive
* Verif.Multi.C99_phi5_positive
* Verif.Multi.C99_order_partial
* Verif.Xs.C100_bounds
* Verif.Xs.C100_conserved
* Verif.Xs.C100_total_partial
* Verif.Xs.C100_one_resonance
* Verif.Xs.C100_two_resonances_false
* Verif.Xs.C101_deduplicate
* Verif.Xs.C101_table
* Verif.Xs.C101_close_points_false
* Verif.Xs.C101_momenta_partial
* Verif.Xs.C101_duplicate_false
* Verif.Pauli.C102_wall
* Verif.Pauli.C102_blocked_iff
* Verif.Pauli.C102_alone
* Verif.Pauli.C102_average
* Verif.Pauli.C102_between_partial
* Verif.Pauli.C102_interpolation_false
* Verif.Pauli.C102_ensembles_false
* Verif.Pauli.C102_overlap
* Verif.Pauli.C102_overlap_centre
* Verif.Pauli.C102_norm
* Verif.Pauli.C102_weights
* Verif.Inter.C103_free
* Verif.Inter.C103_box
* Verif.Inter.C103_stochastic
* Verif.Inter.C104_last_formed
* Verif.Inter.C104_formed
* Verif.Inter.C104_unformed
* Verif.Inter.C104_scale
* Verif.Emt.C105_index
* Verif.Emt.C105_particles
* Verif.Emt.C105_weight
* Verif.Emt.C105_arithmetic
* Verif.Emt.C105_boost
* Verif.Emt.C105_boosted_particles
* Verif.Emt.C105_there_and_back
* Verif.Emt.C105_trace
* Verif.Emt.C106_four_velocity
* Verif.Emt.C106_no_flow_partial
* Verif.Emt.C106_physical
* Verif.Emt.C106_fast_frame_false
* Verif.Dens.C107_normalised
* Verif.Dens.C107_rest_density_partial
* Verif.Dens.C107_unsmeared_false
* Verif.Dens.C107_density_derivative_partial
* Verif.Dens.C107_mixed_derivative_false
* Verif.Dens.C107_participants
* Verif.Dens.C107_smearing
* Verif.Dens.C107_gradient
* Verif.Dens.C107_current
* Verif.Dens.C107_derivatives
* Verif.Dens.C107_continuity
* Verif.Dens.C108_discrete_partial
* Verif.Dens.C108_triangular_partial
* Verif.Dens.C108_border_false
* Verif.Dens.C108_fractional_range_false
* Verif.Sec.C109_nuclei_weight
* Verif.Sec.C109_hadrons
* Verif.Sec.C109_rare
* Verif.Sec.C109_nuclei_partial
* Verif.Sec.C109_hypertriton_false
* Verif.Sec.C110_strangeness_exchange
* Verif.Sec.C110_delta_kaon_partial
* Verif.Sec.C110_ratios
* Verif.Sec.C110_cutoff_false
* Verif.Sec.C111_conjugate_partial
* Verif.Sec.C111_rare_conjugate
* Verif.Sec.C111_order
* Verif.Tot.C112_string_channels
* Verif.Tot.C112_total_partial
* Verif.Tot.C112_gap
* Verif.Tot.C112_defined
* Verif.Tot.C112_annihilation
* Verif.Tot.C112_rare_false
* Verif.Tot.C112_unscaled_false
* Verif.Tot.C112_no_single_false
* Verif.Tot.C113_range
* Verif.Tot.C113_defined
* Verif.Tot.C113_monotone
* Verif.Tot.C113_ends
* Verif.Tot.C113_transit
* Verif.Tot.C113_bbbar
* Verif.Tot.C113_region
* Verif.Tot.C113_point_false
* Verif.Tot.C114_channels_partial
* Verif.Tot.C114_fluid
* Verif.Tot.C114_malformed_false
* Verif.Tot.C114_no_lambda_false
* Verif.Tot.C115_elastic_order
* Verif.Tot.C115_total_order
* Verif.Tot.C115_high_energy_order
* Verif.Tot.C115_probability_order
* Verif.Tot.C115_elastic_conjugation
* Verif.Tot.C115_total_conjugation
* Verif.Tot.C115_probability_conjugation
* Verif.Tot.C115_high_energy_false
* Verif.Wid.C116_range
* Verif.Wid.C116_monotone
* Verif.Wid.C116_zero
* Verif.Wid.C116_large
* Verif.Wid.C116_small
* Verif.Wid.C116_post
* Verif.Wid.C117_threshold
* Verif.Wid.C117_nonneg
* Verif.Wid.C117_pole
* Verif.Wid.C117_dilepton_false
* Verif.Wid.C117_monotone
* Verif.Wid.C117_total
* Verif.Wid.C117_stable
* Verif.Wid.C117_min_mass_stable
* Verif.Wid.C117_min_mass
* Verif.Wid.C117_branches
* Verif.Wid.C118_breit_wigner
* Verif.Wid.C118_normalised
* Verif.Wid.C118_cauchy
* Verif.Wid.C118_cauchy_normalised
* Verif.Wid.C118_law
* Verif.Wid.C119_smallest
* Verif.Wid.C119_single
* Verif.Wid.C119_accept
* Verif.Wid.C119_density
* Verif.Wid.C119_envelope
* Verif.Wid.C119_pair_partial
* Verif.Wid.C119_pair_false
* Verif.Wid.C119_pair_density
* Verif.Wid.C119_masses_partial
* Verif.Wid.C119_too_little
* Verif.Wid.C119_gap_false
* Verif.Wid.C120_decays
* Verif.Wid.C120_exponential_law
* Verif.Wid.C120_none
* Verif.Wid.C120_final
* Verif.Ini.C121_box
* Verif.Ini.C121_defined
* Verif.Ini.C121_peaked
* Verif.Ini.C121_jet
* Verif.Ini.C121_jet_place_false
* Verif.Ini.C122_uniform
* Verif.Ini.C122_flow
* Verif.Ini.C122_sphere
* Verif.Ini.C122_total_partial
* Verif.Ini.C122_flow_total
* Verif.Ini.C122_total_false
* Verif.Ini.C122_lightspeed_false
* Verif.Ini.C122_jets
* Verif.Ini.C123_massive
* Verif.Ini.C123_massive_range
* Verif.Ini.C123_massive_false
* Verif.Ini.C123_moments
* Verif.Ini.C123_moments_range
* Verif.Ini.C123_moments_false
* Verif.Ini.C123_first
* Verif.Ini.C123_first_thermal
* Verif.Ini.C123_hot
* Verif.Ini.C123_branches
* Verif.Ini.C123_cold
* Verif.Ini.C123_es
* Verif.Ini.C124_occupation
* Verif.Ini.C124_shape
* Verif.Ini.C124_maximum
* Verif.Ini.C124_gas
* Verif.Ini.C124_sample
* Verif.Ini.C124_species
* Verif.Ini.C124_thermal_false
* Verif.Pot.C125_value
* Verif.Pot.C125_odd
* Verif.Pot.C125_force
* Verif.Pot.C125_conservative
* Verif.Pot.C125_mirror
* Verif.Pot.C125_scale
* Verif.Pot.C125_scale_nucleus
* Verif.Pot.C125_hypernucleus_false
* Verif.Pot.C125_antiparticle
* Verif.Pot.C125_antimatter_false
* Verif.Pot.C125_symmetry_value
* Verif.Pot.C125_symmetry_force
* Verif.Pot.C125_symmetry_false
* Verif.Pot.C126_value
* Verif.Pot.C126_rest
* Verif.Pot.C126_field
* Verif.Pot.C126_antimatter_false
* Verif.Pot.C126_force
* Verif.Pot.C126_direct
* Verif.Pot.C127_moving
* Verif.Pot.C127_rest
* Verif.Pot.C127_fermi
* Verif.Pot.C127_part
* Verif.Pot.C127_bounds
* Verif.Pot.C128_equation
* Verif.Pot.C128_frame
* Verif.Pot.C128_comoving
* Verif.Pot.C128_search
* Verif.Pot.C128_energy
* Verif.Pot.C128_gradient
* Verif.Pot.C128_gradient_exact
* Verif.Pot.C128_current
* Verif.Pot.C128_antimatter_false
* Verif.Pot.C129_force
* Verif.Pot.C129_update
* Verif.Pot.C129_effect
* Verif.Pot.C129_node
* Verif.Pot.C129_symmetry_false
* Verif.Pot.C129_coulomb_false
* Verif.Pot.C130_electric
* Verif.Pot.C130_magnetic
* Verif.Pot.C130_sum
* Verif.Pot.C130_direction
* Verif.Pot.C130_law_false
* Verif.Pot.C131_bracket
* Verif.Pot.C131_root
* Verif.Pot.C131_same_sign
* Verif.Pot.C131_complete
* Verif.Pot.C131_zero_false
* Verif.Fluid.C132_window
* Verif.Fluid.C132_found
* Verif.Fluid.C132_time
* Verif.Fluid.C132_fraction
* Verif.Fluid.C132_initial
* Verif.Fluid.C132_minimum_false
* Verif.Fluid.C132_limits_partial
* Verif.Fluid.C132_kernel_false
* Verif.Fluid.C132_kernel_one
* Verif.Fluid.C133_fluidize
* Verif.Fluid.C133_check
* Verif.Fluid.C133_check_passes
* Verif.Fluid.C134_core
* Verif.Fluid.C134_corona
* Verif.Fluid.C134_ends
* Verif.Fluid.C134_momentum
* Verif.Fluid.C134_formation_false
* Verif.Fluid.C134_forward_false
* Verif.Fluid.C134_back_partial
* Verif.Fluid.C134_two_lists
* Verif.Fluid.C135_lines
* Verif.Fluid.C135_spectators
* Verif.Fluid.C135_accepted
* Verif.Fluid.C135_same_time_false
* Verif.Fluid.C135_nan
* Verif.Fluid.C136_start
* Verif.Fluid.C136_contains
* Verif.Fluid.C136_long_steps_false
* Verif.Em.C137_step
* Verif.Em.C137_nothing
* Verif.Em.C137_additive
* Verif.Em.C137_final
* Verif.Em.C137_final_stable
* Verif.Em.C137_yield
* Verif.Em.C137_yield_false
* Verif.Em.C137_final_count
* Verif.Em.C137_once_partial
* Verif.Em.C137_once_false
* Verif.Em.C138_momenta
* Verif.Em.C138_weight
* Verif.Em.C138_refused
* Verif.Em.C139_reactions
* Verif.Em.C139_open_partial
* Verif.Em.C139_open_false
* Verif.Em.C139_momenta
* Verif.Em.C139_range
* Verif.Em.C139_actual
* Verif.Em.C139_transfer_partial
* Verif.Em.C139_transfer_false
* Verif.Em.C140_mean
* Verif.Em.C140_single
* Verif.Em.C140_range
* Verif.Em.C140_form_factors
* Verif.Em.C140_dipole
* Verif.Em.C141_reactions
* Verif.Em.C141_channel
* Verif.Em.C141_energies
* Verif.Em.C141_energies_false
* Verif.Em.C141_momenta
* Verif.Em.C141_photon_energy_false
* Verif.Em.C142_mean_partial
* Verif.Em.C142_mean_false
* Verif.Em.C142_two_channels
* Verif.Em.C142_two_channels_false
* Verif.Par.C143_nucleons
* Verif.Par.C143_antinucleons
* Verif.Par.C143_high
* Verif.Par.C143_strings
* Verif.Par.C143_pions
* Verif.Par.C143_deuterons
* Verif.Par.C143_kaons
* Verif.Par.C143_hyperons
* Verif.Par.C144_antinucleons
* Verif.Par.C144_pp_partial
* Verif.Par.C144_pp_false
* Verif.Par.C144_np_partial
* Verif.Par.C144_np_false
* Verif.Par.C144_isospin
* Verif.Par.C144_kaons
* Verif.Par.C144_pomeranchuk
* Verif.Low.C145_regression
* Verif.Low.C145_points
* Verif.Low.C145_few
* Verif.Low.C145_short
* Verif.Low.C145_exact_majority
* Verif.Low.C145_positive_false
* Verif.Low.C145_unique
* Verif.Low.C145_units
* Verif.Low.C145_constant
* Verif.Low.C145_line_partial
* Verif.Low.C145_line_false
* Verif.Low.C146_partial_sort
* Verif.Low.C146_rank_zero_false
* Verif.Low.C146_median
* Verif.Hep.C147_vertices
* Verif.Hep.C147_momentum
* Verif.Hep.C147_ion
* Verif.Eos.C148_file
* Verif.Eos.C148_decision
* Verif.Eos.C148_check_false
* Verif.Eos.C148_truncated_false
* Verif.Eos.C148_empty_false
* Verif.Eos.C148_storage
* Verif.Eos.C148_compile
* Verif.Eos.C148_start
* Verif.Eos.C148_node
* Verif.Eos.C148_interpolation
* Verif.Eos.C148_outside
* Verif.Eos.C148_negative_false
* Verif.Eos.C149_sums
* Verif.Eos.C149_boltzmann
* Verif.Eos.C149_monotone
* Verif.Eos.C149_conjugate
* Verif.Eos.C149_energy
* Verif.Eos.C149_energy_pressure
* Verif.Eos.C149_energy_false
* Verif.Eos.C149_massless_false
* Verif.Eos.C149_neutral
* Verif.Eos.C149_neutral_false
* Verif.Eos.C149_solver_partial
* Verif.Eos.C149_solver_false
* Verif.Eos.C149_guess
* Verif.Td.C150_event
* Verif.Td.C150_names
* Verif.Td.C150_binary
* Verif.Td.C150_text
* Verif.Td.C150_header_order_false
* Verif.Td.C150_open_failure_false
* Verif.Td.C150_both_formats_false
* Verif.Td.C150_density_name_false
* Verif.Td.C150_long_number_false
* Verif.Td.C151_names
* Verif.Td.C151_distinct
* Verif.Td.C151_extension
* Verif.Td.C151_contents
* Verif.Td.C151_runs
* Verif.Td.C151_fields_counter_false
* Verif.Td.C151_extension_false
* Verif.Td.C151_empty_false
* Verif.Td.C151_density
* Verif.Td.C151_tmn
* Verif.Td.C151_tmn_landau
* Verif.Td.C151_velocity
* Verif.Td.C151_fields
* Verif.Td.C151_fluid
* Verif.Td.C151_particles
* Verif.Root.C152_lost_false
* Verif.Root.C152_empty_false
* Verif.Root.C152_collision_overflow_false
* Verif.Root.C152_event
* Verif.Root.C152_run
* Verif.Root.C152_collisions
* Verif.Root.C152_initial
* Verif.Root.C152_frequency
* Verif.Enums.C153_reads
* Verif.Enums.C153_helpful
* Verif.Enums.C153_sets
* Verif.Enums.C153_all
* Verif.Enums.C153_sets_round_trip
* Verif.Enums.C153_quantities
* Verif.Enums.C153_spin_message_false
* Verif.Enums.C153_density_message_false
* Verif.Tdo.C154_row
* Verif.Tdo.C154_columns
* Verif.Tdo.C154_header
* Verif.Tdo.C154_no_exception_partial
* Verif.Tdo.C154_run
* Verif.Tdo.C154_exception
* Verif.Tdo.C154_crash_false
* Verif.Tdo.C154_smearing_eckart_false
* Verif.Route.C155_experiment_spin
* Verif.Route.C155_sphere_spin_false
* Verif.Route.C155_collider_spin_false
* Verif.Route.C155_density
* Verif.Route.C155_header_false
* Verif.Req.C156_accept_partial
* Verif.Req.C156_outputs
* Verif.Req.C156_distinct_partial
* Verif.Req.C156_hepmc_false
* Verif.Req.C156_binary_false
* Verif.Req.C156_refused_false
* Verif.Req.C156_rivet_again_false
* Verif.Lat.C157_manual
* Verif.Lat.C157_automatic
* Verif.Lat.C157_list
* Verif.Lat.C157_collider
* Verif.Lat.C157_collider_covers
* Verif.Lat.C157_box
* Verif.Lat.C157_sphere
* Verif.Lat.C157_gaussian_fits
* Verif.Lat.C157_cubes_fit
* Verif.Lat.C157_overflow_false
* Verif.Lat.C157_zero_size_false
* Verif.LatRun.C158_null_partial
* Verif.LatRun.C158_asked
* Verif.LatRun.C158_present_partial
* Verif.LatRun.C158_delayed
* Verif.LatRun.C158_derivative
* Verif.Ext.C159_add_partial
* Verif.Ext.C159_momentum
* Verif.Ext.C159_fits
* Verif.Ext.C159_remove_partial
* Verif.Ext.C159_ignored
* Verif.Ext.C159_twice
* Verif.Ext.C159_refused
* Verif.Ext.C159_back_partial
* Verif.Ext.C159_pauli_false
* Verif.Ext.C159_twins_false
* Verif.Ext.C159_neighbour_false
* Verif.Ext.C159_core_false
* Verif.Ext.C159_end_time_false
* Verif.Ext.C159_early_false
* Verif.Ext.C159_kaon_false
* Verif.Prog.C160_job
* Verif.Prog.C160_leave
* Verif.Prog.C160_cross_sections
* Verif.Prog.C160_endtime_partial
* Verif.Prog.C161_default
* Verif.Prog.C161_no_overwrite
* Verif.Prog.C161_locked
* Verif.Prog.C161_copy
* Verif.Prog.C161_bad_input
* Verif.Prog.C161_empty_false
* Verif.Prog.C161_widths_false
* Verif.Prog.C162_config
* Verif.Prog.C162_line_endings
* Verif.Prog.C162_last_config
* Verif.Prog.C162_rerun
* Verif.Deform.C163_law
* Verif.Deform.C163_draw
* Verif.Deform.C163_range_partial
* Verif.Deform.C163_range_false
* Verif.Deform.C163_normalised
* Verif.Deform.C163_saturation
* Verif.Deform.C163_manual
* Verif.Deform.C163_manual_false
* Verif.Deform.C163_fermi_partial
* Verif.Deform.C163_fermi_false
* Verif.Deform.C163_accepted
* Verif.Deform.C163_parameters
* Verif.Deform.C163_overwritten_false
* Verif.Deform.C163_orientation
* Verif.Deform.C163_density
* Verif.Deform.C163_radius
* Verif.Chem.C164_density
* Verif.Chem.C164_monotone
* Verif.Chem.C164_unique
* Verif.Chem.C164_bracket
* Verif.Chem.C164_accurate
* Verif.Chem.C164_condensate
* Verif.Chem.C164_dilute_false
* Verif.Chem.C164_unconverged_false
* Verif.Chem.C164_search
* Verif.Chem.C164_species
* Verif.Chem.C164_uniform_false
* Verif.Chem.C164_returned
* Verif.Chem.C164_refused
* Verif.Cell.C165_converges
* Verif.Cell.C165_accuracy
* Verif.Cell.C165_unique_fluid
* Verif.Cell.C165_charge_false
* Verif.Cell.C165_bounds
* Verif.Cell.C165_fluid_partial
* Verif.Cell.C165_threshold
* Verif.Cell.C165_dilute
* Verif.Cell.C165_timelike
* Verif.Cell.C165_sums
* Verif.Cell.C166_removed
* Verif.Cell.C166_cells
* Verif.Cell.C166_cells_exist
* Verif.Cell.C166_choice
* Verif.Cell.C166_chosen
* Verif.Cell.C166_probability
* Verif.Cell.C166_zero_false
* Verif.Cell.C166_numbers
* Verif.Cell.C166_mode_partial
* Verif.Cell.C166_mode_false
* Verif.Cell.C166_position
* Verif.Cell.C166_momentum
* Verif.Cell.C166_flow
* Verif.ThMass.C167_stable
* Verif.ThMass.C167_envelope
* Verif.ThMass.C167_range
* Verif.ThMass.C167_density
* Verif.ThMass.C167_law_partial
* Verif.ThMass.C167_round
* Verif.ThMass.C167_law_false
* Verif.Str.C168_others
* Verif.Str.C168_leading
* Verif.Str.C168_ends_partial
* Verif.Str.C168_ends_false
* Verif.Str.C168_one
* Verif.Str.C168_two
* Verif.Str.C168_flavour
* Verif.Str.C168_total
* Verif.Rem.C169_shift
* Verif.Rem.C169_remake_partial
* Verif.Rem.C169_total_partial
* Verif.Rem.C169_rest_false
* Verif.Rem.C169_slope
* Verif.Rem.C169_factor
* Verif.Ann.C170_pair
* Verif.Ann.C170_weights
* Verif.Ann.C170_strings
* Verif.Ann.C170_same
* Verif.Cons.C171_totals
* Verif.Cons.C171_order
* Verif.Cons.C171_lines
* Verif.Cons.C171_empty
* Verif.Cons.C171_relative
* Verif.Cons.C171_run
* Verif.Cons.C171_unchecked
* Verif.Spl.C172_build
* Verif.Spl.C172_value
* Verif.Spl.C172_nodes
* Verif.Spl.C172_constant
* Verif.Spl.C172_diff
* Verif.Spl.C172_weight
* Verif.Quad.C173_interval
* Verif.Quad.C173_rectangle
* Verif.Quad.C173_limits
* Verif.Quad.C173_returned_partial
* Verif.Quad.C173_code
* Verif.Quad.C173_returned_false
* Verif.Hard.C174_event
* Verif.Hard.C174_consistent
* Verif.Hard.C174_split
* Verif.Hard.C174_neutral
* Verif.Hard.C174_identified
* Verif.Hard.C174_junction
* Verif.Hard.C174_ends_false
* Verif.Resc.C175_ends
* Verif.Resc.C175_result
* Verif.Resc.C175_frame
* Verif.Resc.C175_heavy_false
* Verif.Glue.C176_momentum
* Verif.Glue.C176_charges
* Verif.Glue.C176_enough
* Verif.Glue.C176_shell
* Verif.Glue.C176_energy_partial
* Verif.Glue.C176_energy_false
* Verif.Glue.C176_gluon_false
* Verif.Iss.C177_printed
* Verif.Soft.C178_momentum
* Verif.Soft.C178_single
* Verif.Soft.C178_accepted
* Verif.Soft.C178_direction
* Verif.Fpe.C179_mask
* Verif.Fpe.C179_setup
* Verif.Log.C180_level
* Verif.Log.C180_setup
* Verif.Log.C180_error
* Verif.Log.C180_used
* Verif.Ang.C181_power
* Verif.Ang.C181_transfer_range
* Verif.Ang.C181_cos_range
* Verif.Ang.C181_final
* Verif.Ang.C181_transfer_partial
* Verif.Ang.C181_slope
* Verif.Ang.C181_slope_values
* Verif.Ang.C181_symmetric
* Verif.Ang.C181_elastic
* Verif.Ang.C181_resonance
* Verif.Ang.C181_isotropic
* Verif.Ang.C181_threshold_false
* Verif.Ang.C181_lab_false
* Verif.Tsc.C182_bounds
* Verif.Tsc.C182_printed
* Verif.Tsc.C182_correct_partial
* Verif.Tsc.C182_leading_false
* Verif.Tsc.C182_empty_false
* Verif.Tsc.C182_layout
* Verif.Pol.C183_off
* Verif.Pol.C183_elastic
* Verif.Pol.C183_diffractive
* Verif.Pol.C183_fresh
* Verif.Pol.C183_lambda_false
* Verif.Pol.C183_flip
* Verif.Pol.C183_orthogonal_false
* Verif.Pol.C183_decay
* Verif.Riv.C184_crash
* Verif.Riv.C184_complete
* Verif.Riv.C184_exception_false
* Verif.Riv.C184_format
* Verif.Riv.C184_rivet
* Verif.Riv.C184_rivet_empty_false
* Verif.Riv.C184_setup
* Verif.Riv.C184_select
* Verif.Riv.C184_comma_false
* Verif.Riv.C184_log_name
* Verif.Ndh.C185_outcome
* Verif.Ndh.C185_momentum
* Verif.Ndh.C185_unknown_false
* Verif.Icb.C186_balance
* Verif.Icb.C186_no_alarm
* Verif.Icb.C186_alarm
* Verif.Icb.C186_counters
* Verif.Icb.C186_differences
* Verif.Icb.C186_warning
* Verif.Icb.C186_outside_false
* Verif.Icb.C186_discarded_false
* Verif.Dal.C187_closed
* Verif.Dal.C187_radicand
* Verif.Dal.C187_nonneg
* Verif.Dal.C187_end
* Verif.Dal.C187_unsupported
* Verif.Dal.C187_values
* Verif.Dal.C187_light_false
