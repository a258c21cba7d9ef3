# Formal model of SMASH in Lean 4

`properties.jsonl` lists the properties, `lean/Verif/` contains the model and
the proofs, `MANIFEST.json` maps properties to theorems, `seeded/LOG.jsonl`
records the wrong programs the theorems were tested against.

## Layout

* `lean/Verif/<Area>/Model.lean` – the code, function by function. Every
  definition cites file and lines in `/repo` and says where it simplifies.
* `lean/Verif/<Area>/Spec.lean` – the small independent vocabulary in which the
  property is stated (mathematical objects only, never model helpers).
* `lean/Verif/<Area>/Lemmas.lean` – helper lemmas.
* `lean/Verif/<Area>/Props.lean` – the property theorems, each named after its
  id (`C07_pop_is_earliest`), each followed by an `example` with a concrete,
  non-trivial case that meets the hypotheses.

Small areas keep Spec and Lemmas in the Props or Model file.

## Trusted base

* Lean's kernel, and the axioms `propext`, `Classical.choice`, `Quot.sound`
  (checked by `#print axioms`; some theorems need fewer). No own axioms, no
  `sorry`, no `native_decide`, no `bv_decide`.
* The transcription of the C++ into Lean definitions (by reading). The code is
  neither compiled nor run.
* Arithmetic: `double` is modelled by exact numbers (ℚ where the definitions
  should stay executable, ℝ where roots are needed, or an arbitrary ordered
  field / linear order). Rounding, infinities and NaN are *not* modelled unless
  the section says so. Fixed-width integers are modelled with their width
  wherever overflow matters (clock ticks, PDG bit fields, SHA-256 words,
  narrowing casts, binary output); elsewhere as ℕ/ℤ with index-in-range
  obligations proved.
* The C++ standard library (`std::vector`, `std::*_heap`, `std::sort`,
  `std::regex`, `stdio`), POSIX (`open`, `rename`, `unlink`), yaml-cpp and GSL
  are modelled by their contract, or, where the algorithm matters (heaps), by
  an implementation of the algorithm.

## Plan per property

| id | what is modelled | how it is proved |
|----|------------------|------------------|
| C01–C06 | `Particles`: slot array, hole stack, `id_max_`, capacity; every public mutator as a step function that returns `none` on undefined behaviour | representation invariant by induction over operations; abstraction to a finite map id ↦ payload; refinement of every operation; stale-copy rejection by a history invariant. C06 is false for the code: witness plus `_partial` |
| C07 | binary heap on an array with `push_heap/pop_heap/make_heap` | heap invariant + multiset equality by induction; any linear order of times |
| C08–C09 | `UniformClock` over 64-bit tick counters with the overflow tests | arithmetic over ℤ with range hypotheses; telescoping sum |
| C10 | `CustomClock` as sorted list + counter | sortedness, permutation, filter |
| C11–C13 | `Grid` construction and both `iterate_cells` | cell index arithmetic; pair coverage by case analysis on cell offsets, for all grid sizes; exactly-once as a count |
| C14–C17 | 32-bit `PdgCode` with bit fields, parser, printer, quantum numbers | bit-field algebra; digit lists; finite case analysis on quark digits for the quantum numbers. Wrap-around of the eight-digit spin is a finding |
| C18–C21 | `RectangularLattice` indexing, neighbours, sub-lattice iteration, gradients, resize | Euclidean division; list-membership/no-dup characterisation; C21 false: witness |
| C22–C23 | `enforce_periodic_boundaries`, box wall-crossing finder | order reasoning over ℚ |
| C24 | streaming SHA-256 vs. FIPS 180-4 specification | simulation invariant of `update` over chunks, then `finalize` |
| C25 | `FileLock` as a transition system with processes and crashes | inductive invariant over all interleavings |
| C26 | `RenamingFilePtr` as a transition system with crash after each system call | inductive invariant |
| C27–C28 | string helpers and `line_parser` on character lists | induction on lists; non-termination of `remove_substr` on the empty pattern is a finding |
| C29–C31, C59 | three-/four-vector algebra, kinematics formulas over ℝ | `ring`/`field_simp`/`nlinarith`; wrong two-beam formulas are findings |
| C32 | channel list, running total, selection loop over any ordered field | induction on the list |
| C33 | `check_conservation` decision logic | stated outright, case analysis |
| C34 | M-method of phase-space sampling, two-body kinematics | induction on the number of particles |
| C35–C36 | history and formation-time rules | decision logic; real analysis of `pow` |
| C37–C38 | decay-mode loading | list sums; C38 false: witnesses and the part that holds |
| C39 | lookup table as exact data, Racah formula | kernel-checked finite table + parity argument |
| C40–C41 | YAML tree, take/merge/prune | induction over trees and paths |
| C42–C45 | tabulations, averages, linear interpolation | order arithmetic, induction |
| C46–C50 | event loop: timestepless evolution, output times, event counting, counters, beam momenta | invariants by induction over loop iterations |
| C51 | thermaliser bookkeeping | sums over sampled multiplicities |
| C52 | binary blocks, little-endian serialisation | parser ∘ writer = id by induction |
| C53 | collision candidate logic | decision logic; quadratic minimisation |
| C54 | list-file event reader | induction on lines; `file_has_events_` misjudges short files: witness |
| C55 | random-number transforms over ℝ | monotonicity of log/pow/atan |
| C56 | `numeric_cast` on fixed-width integers | case analysis |
| C57 | sorted type list, lower-bound search | binary-search correctness |
| C58 | straight-line propagation | ring |
| C60 | hypersurface crossing | quadratic equation |
| C61 | queue iteration | witness; the empty and one-element cases |
| C62–C64 | PDG codes: quark content, classes, `is_antiparticle_of` | bit-field algebra, case analysis; witnesses for K0_L and nuclei |
| C65–C66 | lattice look-up and nearest neighbours | Euclidean division; witnesses |
| C67–C69 | three-vector rotations, `Angles`, kinematic helpers, spin vectors | real algebra, trigonometric identities; witnesses |
| C70 | weights reported by a collision | list sums; witness for parametrised totals |
| C71 | loaded decay modes | induction over the lines of the file; witness |
| C72–C73 | configuration sections and validation | induction over trees |
| C74 | trilinear and spline interpolation | order arithmetic, the GSL spline is a parameter |
| C75 | momenta of thermalised particles, bisection | invariants of the search; witness |
| C76 | output quantities, lines and chunks | induction over lists; number formats by contract |
| C77–C79 | collision distance, forming particles, metrics | minimisation of quadratics, derivatives |
| C80 | isospin multiplets of the particle list | induction over the list |
| C81–C82 | seeds, Bessel ratio | bit vectors; continued-fraction bounds by induction |
| C83–C84 | external particles, common start time | real algebra, induction |
| C85–C90 | string fragmentation: flavours, momenta, leading hadrons, PYTHIA mapping (`Frag`) | flavour counting, light-cone algebra, list inductions |
| C91–C97 | nuclei and `ColliderModus` (`Coll`) | real algebra, list inductions, integrals by the fundamental theorem |
| C98–C99 | multi-particle reactions (`Multi`) | enumeration of the documented table, permutation lemmas, detailed balance by algebra |
| C100–C101 | dump of cross sections, decay trees (`Xs`) | induction over trees with fuel, permutations of lists |
| C102 | Pauli blocking (`Pauli`) | decision logic, sums, integrals of Gaussians over spheres |
| C103–C104 | interaction point, formation times (`Inter`) | real algebra, decision logic |
| C105–C106 | energy-momentum tensor, Landau frame (`Emt`) | matrix algebra; the eigenvalue solver by contract |
| C107–C108 | currents, smearing on lattices (`Dens`) | derivatives (`HasDerivAt`), Gaussian integrals, sums over deposited weights |
| C109–C111 | inelastic two-body channels (`Sec`) | case analysis over the channel functions; quantum numbers from codes; a conjugation map on worlds |
| C112–C115 | total and elastic cross sections, strings, assembly of the channel list (`Tot`) | sums of weights, monotonicity of the sine, symmetry by case analysis |
| C116–C120 | form factors, decay widths, spectral functions, mass sampling, decay finder (`Wid`) | recursion solved for every angular momentum, monotonicity, integrals in closed form, measure of the random numbers |
| C121–C124 | initial states of box and sphere, thermal and quantum sampling (`Ini`) | induction over the particles; inverse distribution functions and their derivatives; rejection sampling: first accepted proposal, bound of the density (maximum by the sign of the derivative) |
| C125–C131 | potentials, forces, energies, momenta, fields, root finder (`Pot`) | derivatives of the potentials against the factors of the forces; fundamental theorem of calculus for the Fermi sphere; boost invariance for the equation; induction over the search and over the loop of particles (independence of left-over variables); promises of the GSL and the intermediate value theorem |
| C132–C136 | dynamic initial conditions: finder, core flag, final actions, lattice size, output for vHLLE (`Fluid`) | induction over the list of particles (decision logic, `iff`); invariant over histories with ancestry as ghost state; permutation invariance of the queue; induction over the calls of the output |
| C137–C142 | dileptons, Dalitz decays, photons, bremsstrahlung (`Em`) | integral of the shining rate against the lifetime distribution; induction over the rounds of final decays; boosts of two-body systems; means over uniform random numbers as integrals, Cauchy–Schwarz for the geometric mean |
| C143, C144 | parametrized cross sections (`Par`) | inequalities for real powers, logarithms and exponentials on every range of momenta; limits |
| C145, C146 | smoothing of tabulated data (`Low`) | refinement of robust locally weighted regression (`Low/Spec.lean`), loop invariants of the partial sort and of the moving window, uniqueness of the regression |
| C147 | event record in the HepMC format (`Hep`) | invariant over all histories between record and the particles present; vertices are stable under later interactions; momentum balance as a corollary |
| C148, C149 | equation of state of the hadron gas: table and file, densities, energy, solver loops (`Eos`) | fixpoint characterisation of the compiled table, trilinear interpolation over ordered fields, word-level model of the file, real analysis with Bessel functions as parameters |
| C150 | thermodynamic output on the lattice (`Td`) | state machine with streams and a disk of items; one event by induction over the calls; reader of bytes and of lines written from the user guide |
| C151 | VTK output (`Td/Vtk`) | files as lists of tokens, reader of the legacy VTK format as specification; state machine of counters, names by induction over the calls, distinctness by injectivity of the names and growth of the counters |
| C152 | ROOT output (`Root`) | buffers as functions from places to values, trees as lists of entries; loop over the buffer by strong induction, events and runs by induction over ensembles, outputs and events |
| C153 | named values of options (`Enums`) | every conversion operator as its chain of comparisons, every `to_string` as its table; words against a separate table of documented words; sets by induction over the list of words |
| C154 | `thermodynamics.dat` (`Tdo`) | the loops over ensembles and particles with the currents of `Dens` and the tensor of `Emt`; each column against a weighted sum over all particles; runs by induction over the calls |
| C155 | options on their way from the file (`Route`) | the configuration object of `Config`, with arbitrary other keys taken in between; which keys are left in an extracted section is followed through all extractions, so that the value seen by each component is determined for every file |
| C156 | requested outputs and their files (`Req`) | the checks of the constructor and the chain of cases of `create_output` with the static Rivet flag, against a table of contents, formats and files written down separately; the loops are eliminated by an equivalence (`request_iff`), then acceptance, the set of outputs, their order and the distinctness of files are read off for lists of any length |
| C157 | set-up of the lattice (`Lat.Geom`) | decision logic over the given properties; the default lattices over any floor field: ceilings, containment of every trajectory (Cauchy–Schwarz for the sphere), conditions under which the numbers of cells fit into `int`; witnesses for overflow and zero sizes |
| C158 | lattices during a run (`Lat.Model`, namespace `LatRun`) | contents of a lattice = the particles they were computed from (any type); invariant over all histories of events, steps, motions and outputs; witnesses for delayed values and null pointers |
| C159 | particles added and removed by the caller of the library (`Ext`) | the call up to its loop as a function on ensembles, with any order of the container; permutations, uniqueness of ids, sorting; round trip; witnesses |
| C160 | command line (`Prog`) | the options reported by getopt as a list, the switch as a fold, `main` as a function of options and files; induction over the options, case analysis of every exit |
| C161 | output directory (`Prog`) | files as a map from places to directories and texts, the experiment as any function on them; frame reasoning, induction over the run numbers; witnesses |
| C162 | configuration of a run and its reproduction (`Prog`) | the configuration trees of `Config` with their merge, take, extract and set_value; composition of their specifications; round trip of a second run |
| C163 | deformed nuclei (`Deform`) | real-valued density, the integrals of GSL exact; spherical harmonics specified through Legendre polynomials; substitution in the integrals over the random numbers gives the law of the positions |
| C164 | chemical potentials of quantum gases (`Chem`) | exact integrals with change of variables to the improper momentum integral; dominated convergence and the intermediate value theorem for existence; root finders of GSL as arbitrary transition systems |
| C165 | rest frame of a lattice cell (`Cell.Rest`, `Cell.Conv`) | iteration with a fuel of 50 over an arbitrary equation of state; ideal fluid decomposition as separate specification; invariant of the loop; contraction with factor 1/3 for convergence and accuracy; intermediate value theorem for existence of the solution; partial: the charge density is not transformed |
| C166 | cells of the forced thermalisation (`Cell.Region`) | lookup of positions by C65; walk over the partial sums as an iff, Lebesgue measure of the numbers leading to a cell; positions by the index bijection C18; momenta by the boosts C29; partial: number 0 and chemical potential of the charge in the mode algorithm |
| C167 | thermal masses of resonances (`ThMass`) | search for the envelope on two grids by induction over the points; one round as a case distinction; the law of one round as a Lebesgue integral over the two random numbers, by substitution of the Cauchy distribution function; partial: the law needs an envelope that covers the ratio |
| C168 | leading baryon of a string (`Str`) | `fragment_off_hadron` and the part of `fragment_string` before PYTHIA is called, with the choices of PYTHIA and the random numbers given from outside; induction over the emitted hadrons for energy, momentum and flavour; the ends of the remaining string solved in closed form. Not modelled: the call of PYTHIA on the remaining string and what is done with its hadrons |
| C169 | kinematics of the hadrons of the remaining string (`Rem`) | `remake_kinematics_fragments` and `shift_rapidity_event` over the reals, the event record reduced to the entry of the system and the final particles; the factor of the iteration is shown to be a Newton step (derivative) that goes the right way. Not modelled: that the iteration converges (if it does not, the code refuses) |
| C170 | Annihilation into strings (`Ann`) | `next_BBbarAnn` up to the fragmentation: order of the pair, quark numbers (from the model of the PDG codes), weights, removal of a pair, remaining quarks, random swaps, thresholds. Accesses to missing elements are an error of their own. Constituent masses are an arbitrary function, random choices are arguments. Proved from the valence quarks of `Pdg/Content`: a baryon of five flavours has three quarks, so that two remain. The fragmentation itself is an oracle; kinematics of the fragments: C169. |
| C171 | check of the conservation laws during a run (`Cons`) | `QuantumNumbers` of the ensembles and `report_deviations` with the report as a list of lines, the check after a time step and the sequence of checks of an event; induction over the ensembles and the time steps. The comparison of momenta is that of C59, the quantum numbers are those of the codes; rounding of the sums is not modelled. |
| C172 | interpolation in two variables (`Spl`) | constructor and call operator of `InterpolateData2DSpline` and `brems_diff_cross_sections`; the spline of GSL is an arbitrary function that ends the program outside of the table (contract for the values at the points of the table, shown to be satisfiable). The ten tables themselves are not in the model: any tables that were accepted. |
| C173 | numerical integration (`Quad`) | `Integrator`, `Integrator2d` and `check_error` over the reals; GSL and Cuba are arbitrary functions with the contract that the error is not underestimated. The transformation to the unit square is proved with the substitution rule of Mathlib's interval integrals. Values that are not numbers are not modelled. |
| C174 | strings of a hard scattering (`Hard`) | `compose_string_parton`, `compose_string_junction`, `find_junction_leg`, `get_index_forward` and the loop over the strings; rapidity is any function, fragmentation succeeds; induction over the searches with the balance of colours and anticolours (open colours included) as invariant; several junctions (`C174_consistent`): the balance includes the legs of the junctions left, and each round of the search takes at least one junction; `C174_event` joins this with the splitting of gluons (C176) |
| C175 | scaling of the parton momenta (`Resc`) | the last loop of `restore_constituent` over the reals; it is Newton's method for a convex function, so that after the first step the energy is not below the target; the sum of the absolute momenta decreases in each further step by at least the tolerance, which bounds the number of steps |
| C176 | splitting of gluons (`Glue`) | `splitting_gluon_qqbar`, `find_total_number_constituent` and the energy given to the loop of C175; `nQuarksInCode` by contract, masses, rapidity and draws arbitrary; relations kept by one splitting are kept by the loops; the counts of the code equal those of the event by induction |
| C177 | particle list for iSS (`Iss`) | the loop of `--dump-iSS` with `std::sort` by contract; lines as the values printed; an inductive predicate `Form` says what a reader relies on |
| C178 | final state of string collisions (`Soft`) | `string_excitation` with attempts given as an arbitrary function, `next_SDiff`, `set_mass_and_direction_2strings`, `make_final_state_2strings` with the kinematics of `Frag`; induction over the attempts; light-cone momenta show that accepted strings have positive energy; the fragmentation is arbitrary with the contract of energy and momentum conservation. Scaling of cross sections and formation times: C89 |
| C179 | floating-point traps (`Fpe`) | The control registers of x86 as bit vectors, `enable_float_traps`, the guard with constructor and destructor, the set-up; programs as trees of operations, C++ exceptions, handlers and guards; induction over programs. `<cfenv>` by contract (what glibc does to the registers); the text printed by the signal handler is not modelled. |
| C180 | levels of the log areas (`Log`) | `setup_logging`, `create_all_loggers` with its compile-time recursions, the names of the levels, `isEnabled`; the section as a list of keys and scalars, `take` by its contract (module `Config`), the padding from `Text` (C27); induction over the areas and over the halving. Areas and keys are the lists in the source, compared by the kernel. Values that are no scalars, colours, and the output itself are not modelled. |
| C181 | Scattering angles of two-body collisions (`Ang`) | `ScatterAction::sample_angles` with its slopes, weights and choice of distribution over the reals; random numbers by the model of `Rand`, particle properties as flags, the boost to the centre of mass and debug output left out. Proved: range of the transfer and of the cosine, the laws of each branch stated outright, symmetry, `(p1-p3)² = t` and conservation for the final state. Missing: incoming momenta with a tiny but non-zero transverse part. |
| C182 | Counter of processor cycles (`Tsc`) | `TimeStampCounter::cycles` and `operator<<` as text; the logarithm is taken as exact (the double may round up just below a power of ten), the instruction that reads the counter is not modelled. The number read from the text is compared with the count. |
| C183 | Spin vectors in scatterings and decays (`Pol`) | the choice of spin handling by process in `ScatterAction::generate_final_state`, with `spin_interaction`, `string_spin_interaction` and the unpolarised spin vectors, over the reals; kinds of particles as flags, momenta of the final state given. Isometry of boosts, induction over the outgoing particles. The products of decays (decayaction.cc:99-137) are modelled too. |
| C184 | Events in HepMC files and for Rivet (`Riv`) | `HepMcOutput` as steps on a map of file names, `RivetOutput` as the list of calls the library receives; HepMC3 and Rivet themselves are not part of the repository and taken as the record of what they are given; events are opaque (their building is C147). Induction over the events, for every prefix of the steps. |
| C185 | Final state of hard string processes (`Ndh`) | The loop that takes non-partons out of the event record, index by index, the loop over strings and the final acceptance; PYTHIA is given by its results. The loop is shown to be a partition in order, success an iff, momentum by sums over lists. |
| C186 | Books of an event and final checks (`Icb`) | Multiset of particle energies, counters and energies booked by `perform_action`, reset at the beginning, decisions of `final_output`. Balance and counters by induction over arbitrary histories; the exception and the warning as iff; floating-point division by zero is modelled by its IEEE outcome. |
| C187 | Spectra of Dalitz decays (`Dal`) | `diff_width` over the reals with the outcomes number, not a number, failed assertion and exception; partial widths and form factors are parameters. Radicands are factorised, signs follow from kinematics. |

Properties from C116 on are described in `properties.jsonl`, their status and the
hypotheses used in `MANIFEST.json`.

No property on the list is inexpressible; statistical statements (sampled
distributions) are only covered as far as they can be stated as measure of the
set of random numbers leading to an outcome.

## What is modelled and what is not

`COVERAGE.md` (generated from the comments of the model) lists the lines of
every source file the model cites, and the files that are not modelled at all.
The main simplifications, repeated in the comments of the definitions:

* Logging, plotting scripts, timing, the logger configuration and all
  interfaces to ROOT, HepMC, Rivet and PYTHIA are left out. What PYTHIA returns
  is an argument (oracle).
* Random numbers are arguments; theorems quantify over all of them.
* Parametrised cross sections, decay widths, spectral functions and numerical
  integrals are arbitrary functions unless the section models them.
* Memory management, copying of objects, threads and signals are left out
  (files and locks excepted).
* The scheduler of the event loop is modelled with abstract finders: what is
  found is an argument with the contract stated in the structure `Fair`.

## Axioms

`AXIOMS.md` lists for every property theorem the axioms it depends on
(generated by `tools/axioms.py` with `#print axioms`); there are none besides
`propext`, `Classical.choice` and `Quot.sound`.

## Findings

Places where the code does not have a listed property. Each line names the
theorem that proves the violation for the model (theorems ending in `_false`
or as given).

* `is_empty()` looks at the storage, not at the particles (C06_is_empty_false).
* `begin()` of the action queue is not the earliest action (C61_begin_not_earliest); `earliest_time()` on an empty queue is undefined.
* The overflow test of `next_time()` overflows, `+=` of a duration is unchecked (C09); tiny steps stall the clock (C08_tiny_step_stalls).
* Grid: cell count overflows without a limit (C11_cell_count_overflows); Largest strategy in narrow periodic boxes misses pairs (C13_largest_cells_miss_pair).
* PDG codes: hexadecimal digits accepted in n, n_R, n_L (C14_hex_collision, C14_hex_unreadable), wrap-arounds (C17_wraps, C17_nucleus_wraps), nuclei confused (C64_nuclei_confused), K0_L (C62_kaon_inconsistent), W+ without antiparticle (C15).
* Lattice: resizing does not resize the storage (C21_new_cells_break_storage); far negative points leave the storage (C65_far_point, C19_far_cube); nearest neighbours unchecked (C66_outside_point).
* Walls: particles slower than 1e-6 never cross (C23_slow_particle).
* Files: a failing `fclose` is ignored (C26_io_error); CRLF blank lines (C28_carriage_return); `remove_substr` with empty pattern does not end (C27_remove_empty).
* Kinematics: `pCM` far below threshold (C30_far_below), two-beam `s_from_Ekin` and `s_from_plab` (C31), `<=`/`>=` of four-vectors (C59_le_wrong), rotation of tiny vectors (C67_tiny_vector), rejected polar angle is kept (C67_rejected_value_kept), spin vector boosted the wrong way (C69_not_orthogonal).
* Weights after rescaling (C70_parametrized); decay modes: C38_rejects_allowed, C38_three_multiplets_wrong, C71_charge_violated.
* Configuration: C40_twice_with_default, C40_empty_key_lost, C40_repeated_key, C73_short_key_ub.
* Tabulations: C42_far_ub, C43_truncated, C45_defined (single point).
* Event loop: C47_two_calls_false, C47_second_event_false, C47_final_label_false, C49_wrap_false, C50_second_event_false.
* Thermaliser: C51_negative_number_false, C51_empty_class_false, C75_heavy_false, C82_lower_false.
* Output: C52_initial_conditions_false; `%g` buffer of 13 characters can be exceeded.
* Collisions: C53_slow_pair_false; list files: C54_short_plain_false, C83_negative_energy_false.
* Random numbers: C55_expo_bounds_false, C55_power_mixed_false, C55_beta_a0_one_false; casts: C56_double_64_false.
* Particle list: C57_second_call_false. Propagation: C58_back_frozen_false, C60_frozen_false, C60_long_step_false, C60_boundary_false, C79_exponential_false.
* Strings: C86_gluon_false, C87_closest_false, C90_charge_false.
* Collider: C92_total_energies_false, C92_below_mass_false, C93_at_rest_false, C94_assertion_false, C96_labels_false, C96_last_line_false.
* Multi-particle reactions: C98_no_protons_false. Dump: C100_two_resonances_false, C100_no_process_false, C101_duplicate_false, C101_close_points_false.
* Pauli blocking: C102_interpolation_false, C102_ensembles_false.
* Densities: C106_fast_frame_false, C107_unsmeared_false, C107_mixed_derivative_false, C108_border_false, C108_fractional_range_false.
* Cross sections: C109_hypertriton_false, C110_cutoff_false, C112_no_single_false, C112_rare_false, C112_unscaled_false, C113_point_false, C114_malformed_false, C114_no_lambda_false, C115_high_energy_false.
* Widths and masses: C117_dilepton_false, C119_pair_false (a random number of exactly 0), C119_gap_false (energies between the kinematic threshold and the smallest mass).
* **C121** `C121_jet_place_false`: the jet of a box, announced for the middle of the box, starts in its corner.
* **C122** `C122_total_false`: with radial flow the momenta before and after the boost are both added to the total that is subtracted, so the initial state has a net momentum. `C122_lightspeed_false`: radial velocity 1 with exponent 0 is accepted.
* **C123** `C123_massive_false`: no momentum for masses above 50 T; `C123_moments_false`: negative upper bound for m = 6 T, every proposal is accepted.
* **C124** `C124_thermal_false`: quantum sampling with thermal multiplicities dereferences an end iterator for the first particle.
* **C125** `C125_antimatter_false`: `skyrme_force` multiplies the derivative of the (odd) potential by the sign of the density; the derivative of an odd function is even. Antibaryons in antimatter are pushed out where they should be attracted.
* **C125** `C125_hypernucleus_false`: a hypernucleus is given `(3-L)/3·A` of the force, not a third for each of its `3A-L` light quarks (hypertriton: 2 instead of 8/3).
* **C125** `C125_symmetry_false`: with a configured `gamma` the symmetry potential and its force are not numbers where the baryon density is zero or negative.
* **C126** `C126_antimatter_false`: the VDF field of the mirrored surroundings is the same instead of the opposite (a sign too many).
* **C128** `C128_antimatter_false`: the energy does not depend on the sign of the density, but the force is scaled with the baryon number.
* **C129** `C129_symmetry_false`: a symmetry potential without Skyrme or VDF on a lattice has no effect (the baryon density lattice is not created), and dereferences a null pointer if the baryon density is printed.
* **C129** `C129_coulomb_false`: a Coulomb potential without a lattice dereferences a null pointer (only an error is logged).
* **C130** `C130_law_false`: the force between two charges is `4π` times Coulomb's law: fields are those of Gaussian units, the charge that of Heaviside-Lorentz units.
* **C131** `C131_zero_false`, `C131_shared_false`: a root at zero is never accepted; two root finders share one equation.
* **C132** `C132_minimum_false`: `Minimum_Time` is compared with the end of the time step; a particle may become fluid up to one step earlier. `C132_kernel_false`: the own contribution is subtracted with the kernel `(2πσ)^(-3/2)` instead of `(2πσ²)^(-3/2)`.
* **C133** `C133_uninitialised`: `perform_action` reads `process_type_` of a scattering before `generate_final_state` sets it; the member has no initial value. Elastic collisions of core and corona happen only if that memory holds the number of `Elastic` (`C133_garbage`). `C133_multi_false`: multi-particle reactions of core particles give particles that are not core.
* **C134** `C134_formation_false`: the formation time of the particles moved back is overwritten when the action is performed. `C134_forward_false`: particles are moved forward if the last collision is less than 0.01 fm ago.
* **C135** `C135_same_time_false`: the comparison of proper times lacks an absolute value.
* **C136** `C136_long_steps_false`: the lattice grows by 5 fm per time step, whatever its length.
* **C137** `C137_yield_false`: lifetimes are drawn from the hadronic widths, so the mean yield of a dilepton mode is larger than its branching ratio. `C137_once_false`: with final decays that are not forced, resonances shine twice; with forced weak decays, stable particles with decay modes never shine.
* **C139** `C139_open_false`: at exactly the mass of the outgoing hadron a photon reaction is possible but throws. `C139_transfer_false`: the scattering angle is taken with respect to the z axis, not to the incoming particles.
* **C141** `C141_photon_energy_false`: the photon carries `k - k²/(2√s)` instead of the energy `k` drawn. `C141_energies_false`: the largest photon energy is wrong for unequal masses.
* **C142** `C142_mean_false`, `C142_two_channels_false`: the weight is a geometric mean of two integrals and its mean is smaller than the cross section; with two final states the mean is `(σ₁²+σ₂²)/(σ₁+σ₂)` instead of `σ₁+σ₂`.
* **C144** `C144_pp_false`, `C144_np_false`: the total cross sections of two nucleons are smaller than the elastic ones at small momenta (pp: 0.4 to 0.43 GeV; np: for example 0.5 GeV).
* **C145** `C145_positive_false`: smoothed values of positive data can be negative; nothing in the code limits the smoothed cross sections (a numerical emulation of the tables, outside of Lean, gives a few slightly negative values for the pi+ p and Sigma0 K0 tables).
* **C145** `C145_line_false`: data on a line are changed if the points of a fit are close together on the scale of all data (less than a thousandth of the range): they are replaced by their mean.
* **C145** `C145_exact_majority`: if more than half of the points are fitted exactly, the robustness iterations do not stop there (as in the original program) but set all weights to zero and return the data including the outliers. `C145_few`: with a span of less than three points nothing is smoothed, which is the case for some of the tables. The comment of the code says that delta = 0 means that delta will be calculated; it is used as 0.
* **C146** `C146_rank_zero_false`: for rank 0 the partial sort reads out of bounds; the smoother asks for it only for two points, where the residuals vanish.
* **C147** `C147_neutron_false`: a beam of a single neutron gets the ion code 1000000010 in place of 2112 (the test for the neutron has the number of nucleons and the charge exchanged).
* **C147** `C147_box_false`: outside of the collider modus without history the initial particles are in the record with the status of final particles, beside the final ones.
* **C148** `C148_negative_false`: a negative net charge density (or baryon density) is converted to an unsigned index, which is undefined; the thermalizer passes such densities for neutron-rich cells with negative pions.
* **C148** `C148_truncated_false`, `C148_empty_false`: the state of the file is never tested; a file which ends early leaves indeterminate elements, one without a proper number of nodes gives an empty table which passes the check and whose first query is out of bounds.
* **C148** `C148_check_false`: of the table with 90 nodes in each direction only every second node in each direction is checked.
* **C149** `C149_energy_false`: one species with mass more than 500 temperatures above its chemical potential makes `energy_density` return 0, while the densities leave out only that species.
* **C149** `C149_massless_false`: for a species without mass the energy density is 3/2 of the pressure (`3.0 * g * x` where `z²K₂ → 2` gives 6).
* **C149** `C149_neutral_false`: `mus_net_strangeness0` searches only non-negative potentials and fails for an excess of antibaryons.
* **C149** `C149_solver_false`: when the solver gets stuck in its first step the point is returned without a warning.
* **C150** `C150_header_order_false`: the binary header has the sizes of the cells before the origin; the user guide says the origin comes first (and says sizes of the lattice).
* **C150** `C150_open_failure_false`: the streams do not throw, so the `catch` around `open` is dead: if a file cannot be opened the output is lost silently.
* **C150** `C150_both_formats_false`: an object with both formats would write the text values into the binary file; `create_output` makes one object per format.
* **C150** `C150_density_name_false`: for density types other than baryon and baryonic isospin the file is named `net_baryonI3_rho_eckart`.
* **C150** `C150_long_number_false`: from event 10 000 000 the extension of the name is cut.
* **C151** `C151_empty_false`: the particle output of an ensemble without particles calls `Particles::time()`, which needs a first particle.
* **C151** `C151_extension_false`: from event (or output) 100 000 the extension of the lattice files is cut, because the buffer has 22 characters.
* **C151** `C151_fields_counter_false`: the counter of the field output is not reset at the start of an event, as the other counters are.
* **C152** `C152_lost_false`: when an output has more particles than the buffer (500000), the particle which meets the full buffer is not written: of every 500001 particles one is lost.
* **C152** `C152_ensemble_number_false`: `tcounter` grows from ensemble to ensemble, so that outputs at the same time have different numbers when there are several ensembles.
* **C152** `C152_interaction_ensemble_false`: interactions are written with the ensemble of the last output, not with their own.
* **C152** `C152_initial_impact_false`: entries of `SMASH_IC.root` have the impact parameter and the empty flag of the event before (0 in the first event).
* **C152** `C152_empty_false`: an output without particles leaves no entry.
* **C152** `C152_collision_overflow_false`: the loop over the particles of an interaction has no check of the size of the buffer (the comment in the code says it is assumed).
* **C153** `C153_density_false`: the density types charge and strangeness are written as "charge" and "strangeness" but no option accepts these words.
* **C153** `C153_level_false`: a log level stored with `set_value` is written by `einhard::getLogLevelString`, which pads to five characters ("  ALL", " INFO", " WARN", "  OFF"); reading it back throws.  `C153_level_stored` says for which levels this happens.
* **C153** `C153_spin_message_false`, `C153_density_message_false`: the message for `Spin_Interactions` offers "Elastic", which is rejected; the one for density types leaves out "total isospin".
* **C153** `C153_unknown_after_all_false`: the loop over a list of processes stops at "All", so that misspelt words behind it are not noticed, while the same words before it are an error.
* **C154** `C154_crash_false`: the Eckart density in `thermodynamics.dat` is `jmu.abs()` of the net current, which throws for space-like vectors; a proton and an antiproton that fly apart have such a net baryon current.  The run ends with an exception and the file with a line that has only the time (`C154_exception`).  The lattice output uses the difference of the two rest frame densities instead and does not throw.
* **C154** `C154_smearing_eckart_false`: the user guide says that the Eckart density is not affected by switching the smearing off, but the option is handed to `current_eckart`.
* **C155** `C155_sphere_spin_false`, `C155_collider_spin_false`: `SphereModus` and `Nucleus` take `Collision_Term: Spin_Interactions` from a sub-configuration that holds only the section `Modi`, so they always get the default `Off`: with spin interactions on, no particle of a sphere or of a nucleus has a spin vector (custom nuclei never ask).  The box and the list use the value of the experiment.
* **C155** `C155_jet_antiparticle_false`: the antiparticle of a back-to-back jet in the sphere would not get a spin vector even if the option arrived (and the reference to the jet particle may dangle by then, because creating the antiparticle can reallocate the list).
* **C155** `C155_header_false`: `Only_Participants` is taken by `create_experiment_parameters`; the second `take` in `OutputParameters` acts on an extracted section, which has forgotten that the key was taken, and returns the default: the header line `# only participants are taken into account` is never written.
* **C156** `C156_hepmc_false`: `HepMC` and `HepMC_asciiv3` requested together are accepted, and two outputs write to the same file; each renames the unfinished file in its destructor, where the second attempt throws.
* **C156** `C156_binary_false`, `C156_refused_false`: the check that a custom format does not repeat a standard one takes `Extended` from the section `Collisions` for every content but the particles, while the outputs take it from their own section.  Extended dileptons with the extended columns in `Binary` and `Oscar2013_bin` are accepted and both write `Dileptons_oscar2013_extended.bin`; the same with the short columns are refused although the files differ.
* **C156** `C156_rivet_again_false`: with both YODA formats the warning announces that the first will be used, but the count of outputs then fails and the run is refused; because the flag is static, a second experiment of the same process cannot have a Rivet output at all.
* **C156** (no theorem): `Root` is accepted for Thermodynamics, Coulomb and Rivet and gives a file without trees; repeated formats are removed through a `std::set`, which also sorts the remaining ones.
* **C157** `C157_overflow_false`: the automatic lattice for discrete or triangular smearing has cells contracted by gamma; at 200 GeV and an end time of 200 fm the product of the cell numbers overflows `int` in the constructor of the lattice (undefined behaviour).  The product is formed before the check of the cell numbers.
* **C157** `C157_zero_size_false`: a size of 0 is accepted although the message says that sizes must be positive; the cells have volume zero.
* **C158** `C158_density_false`: with a Skyrme or VDF potential the printed baryon density (and the mean-field energy) is the one of the last end of a step or start of the event, not of the time of the output; without potential the same output is computed anew.
* **C158** `C158_fields_false`, `C158_isospin_false`: the electromagnetic fields and the isospin density of a symmetry potential are not refreshed at the start of an event: until the end of its first step they are those of the event before (zeros in the first event).
* **C158** `C158_derivative_false`: in the first step of each event the time derivative of the isospin density is a difference to the last density of the event before; only the baryon density is initialised at the start of an event.
* **C158** `C158_null_false`: Coulomb without lattice and a symmetry potential alone with the baryon density printed use a null pointer at the end of the first step (the configurations of C129); `C158_null_partial` shows that there are no others.
* **C159** `C159_pauli_false`: with Pauli blocking the action that adds particles can be blocked; then no particle of the list is added, mesons included, and the caller is not told.
* **C159** `C159_twins_false`: two particles that fit each other within the tolerance cannot be removed together, because the search finds the first of them twice; the call throws.
* **C159** `C159_neighbour_false`: the positions are compared with a relative precision of 1e-4; the first particle in the container that fits is removed, not the best one.
* **C159** `C159_core_false`: if core and corona particles are to be removed together, the rule for core particles discards the action; nothing is removed and the caller is not told.
* **C159** `C159_end_time_false`: an end time that is too late is refused only after the particles have been added and removed.  (The same holds for errors in the second list.)
* **C159** `C159_early_false`: a particle given at a later time is moved back to the present with a cross section scaling factor of 1, so it interacts before its time; the modus `List` uses 0 for such particles.
* **C159** `C159_kaon_false`: K_S and K_L are not converted into K⁰ and its antiparticle; only a local copy of the code is.
* **C160** `C160_endtime_false`: `-e` is documented as a shortcut for `-c 'General: {End_Time: ...}'`, but the text goes through `atof` and `abs`: `-e -5` runs until 5 fm, and a text that is no number silently gives the end time 0.
* **C161** `C161_empty_false`: without `-f` the directory is documented to be empty, but only a file `config.yaml` is looked for; a run in a directory with other results replaces them.
* **C161** `C161_widths_false`: `-r` sets up a whole experiment in the output directory without taking the lock or looking for existing results; it empties the unfinished output files of a running simulation.
* **C161** `C161_tabulations_false`: if the directory is given with a slash at the end (`-o out/`), the tabulations go into the output directory instead of next to it, and are computed again for every directory.
* **C161** `C161_out_of_ids_false`: if all run numbers are used, the exception announced for this case is never thrown, because the test compares `data` with `data/<id>`; the last existing directory is used.
* **C162** `C162_logging_false`: the copied configuration does not contain the section about logging, which is taken out before.
* **C163** `C163_range_false`: the range of the distances, R/d + R d, adds an inverse length to a length; for a diffusiveness of 1 it is 2R whatever the deformation, and parts of the nucleus where the density is nearly saturated are never populated.
* **C163** `C163_overwritten_false`: a saturation density given by the user is overwritten if the deformation is automatic.
* **C163** `C163_manual_false`: with a manual deformation and default Woods-Saxon parameters the saturation density is that of the sphere, so the density does not add up to the number of nucleons (`C163_manual`: it does exactly if the deformation keeps the weighted volume).
* **C163** `C163_fermi_false`: nucleons are rotated before their Fermi momenta are drawn, and the density is then evaluated at the rotated angles as if the nucleus was not rotated. (Also: the branch of the saturation density for gamma ≠ 0 cannot be reached from the input, and a diffusiveness of 0 makes the range infinite, so that sampling does not end.)
* **C164** `C164_dilute_false`: the precision of the density, 1e-8 GeV³ in the root finder and 0.001 per fm³ in the check, is absolute; a root finder may stop at a density that is larger than that of a dilute gas by any factor.
* **C164** `C164_unconverged_false`: a root finder that has not converged after 100000 iterations leaves the chemical potential at 0 without an error, if the density is within 0.001 per fm³.
* **C164** `C164_uniform_false`: if the search for the maximum of the distribution has not converged the maximum is 0, the ratio is infinite, and momenta are uniform up to 10 GeV.
* **C165** `C165_charge_false`: `compute_rest_frame_quantities` converts the baryon and strangeness densities to the rest frame but passes the charge density of the computational frame to the equation of state.
* **C166** `C166_zero_false`: `while (partial_sum < r)` starts with index -1; if the uniform number is 0 (always if all particle numbers are 0, e.g. no species for a mode), `cells_to_sample_[-1]` is read. `C166_mode_false`: mode sampling uses `muq = 0` instead of the chemical potential of the charge of the cell.
* **C167** `C167_law_false`: the envelope is 1.5 times the largest ratio on a grid of 30 points (and a second grid around the best point). A narrow peak of the spectral function between the grid points is not covered; candidates there are thrown away (the envelope is raised for later rounds only), so that these masses cannot be returned from the first round although their thermal density is positive.
* **C168** `C168_ends_false`: the remaining string is accepted when its mass exceeds the sum of the constituent masses; its mass is computed with the total transverse momentum, which can be zero although each end has a large one. Then the light-cone momenta of the ends are square roots of negative numbers. `C168_ends_partial` gives the exact condition (sum of the transverse masses of the ends).
* **C169** `C169_rest_false`: if all hadrons have the rapidity of the string, none counts as most forward or backward (index 0 is kept), the transverse momentum is added to the entry of the whole system, success is reported and the hadrons miss the transverse momentum.
* **C173** `C173_returned_false`: the relative precision is compared with the value, not with its absolute value (integrate.h:82-83), so that for a negative integral only the absolute precision counts: an integral can be returned while that of the negative function, with the same error, ends in an exception.
* **C174** `C174_ends_false`: `compose_string_junction` has no exit for a leg that is found neither among the partons nor among the junctions as long as another junction is in the event (stringprocess.cc:1385-1459, 1495): the search goes on for ever, where for the last junction the same event gives the error "Hard string could not be identified". PYTHIA events with consistent colours do not get there.
* **C175** `C175_heavy_false`: nothing checks that the partons with their new flavours are not heavier together than the energy of the collision; in this case the loop of stringprocess.cc:1234-1264 does not end.
* **C176** `C176_energy_false`: `restore_constituent` reads `pSum` before the gluons are split (stringprocess.cc:1120) and not again, so the change of energy by the splitting ("this will be cured later", 1032-1033) is not seen by the check in 1235: if the replaced constituents have the same mass as before (u and d), the loop ends at once with a wrong total energy. `C176_energy_partial` is what holds.
* **C176** `C176_gluon_false`: the search for the most forward gluon starts with the first parton whether it is a gluon or not (970-983), so that no gluon is found when this parton is more forward than all gluons.
* **C177** `C177_decays_false`: a decay into three particles (η → πππ in decaymodes.txt) is printed with 2 as the number of products and without its third product (smash.cc:566-571), so that charges and energy are not conserved for a reader of the list.
* **C178** `C178_last_false`: after the loop over the attempts the code tests `ntry == ntry_max` and not the success (scatteraction.cc:732), so that a success of the 10000th attempt is thrown away and another process is tried. Also: a failed string scatters elastically, but as the type of the branch is still that of the string, both particles are moved to the interaction point (scatteraction.cc:122-124), unlike in elastic collisions.
* **C179** `C179_keep_false`, `C179_nested_false`: the mask of a guard is documented as the traps to *keep* enabled, but the constructor first disables all traps and then enables those of the mask, also those that were off before. A guard that "keeps" underflows makes them abort although SMASH never traps them, and a guard with a mask inside the scope of one without (where "all code up to the closing brace will not trap") makes the exceptions of the mask abort again.
* **C180** `C180_written_false`: `convert<LogLevel>::encode` (logging.h:243) writes the text meant for log lines, in which ALL, INFO, WARN and OFF begin with blanks, and `decode` refuses blanks. A level set by `set_value` to one of these four throws "invalid logging level" when it is taken (`C180_written`: exactly these four).
* **C181** `C181_lab_false`: for elastic collisions other than of two nucleons the code takes s = 4·√(p²+m²) instead of 4·(p²+m²), so the centre-of-mass momentum it promises to keep is kept only where p² = 1 - m² (in GeV²).
* **C181** `C181_threshold_false`: with no momentum left for the final state the drawing of the transfer in an elastic collision never ends.
* **C182** `C182_leading_false`, `C182_empty_false`: the first digit of counts with 4, 7, 10, … digits is not printed (1234567 cycles appear as 234'567), nothing is printed below ten cycles, and zero cycles are undefined behaviour.
* **C183** `C183_lambda_false`: `generate_final_state` does not call `spin_interaction` for 2 -> 1 processes (it does for 2 -> 2, where it has no effect), so a Sigma* formed from a Lambda and a pion never inherits the spin of the Lambda and the spin flip is dead code; `C183_flip` shows what it would do.
* **C183** `C183_orthogonal_false`: an elastic collision boosts the spin vector with the velocity of the outgoing particle without first going to the rest frame of the incoming one, and in the wrong direction: orthogonality to the momentum is lost.
* **C184** `C184_exception_false`: an exception in a run destroys the output object, which gives the final name to a HepMC file without the remaining events.
* **C184** `C184_rivet_empty_false`: without any event Rivet is finalised without ever having been initialised.
* **C184** `C184_comma_false`: names of weights are joined with commas without quoting, so a name with a comma stands for two weights.
* **C185** `C185_unknown_false`: a non-parton of the hard event that is not in the particle list only sets `final_state_success`, which is not read any more (stringprocess.cc:674); the warning says "start over", but the process succeeds without the particle and its momentum.
* **C186** `C186_outside_false`: in a run for initial conditions, particles taken away from outside (Freeforall) are not booked; once all others are removed the event ends with the exception "There is remaining energy in the system" (experiment.h:3101-3117).
* **C186** `C186_discarded_false`: if all interactions are discarded the share is reported as 0% and the warning of the stochastic criterion is not given (experiment.h:3130-3134).
* **C187** `C187_light_false`: `diff_width` checks the upper end of the spectrum but not the lower one; a pair lighter than two leptons gives a NaN. Both callers stay above (decaytype.cc:471, decayactiondilepton.cc:53).

Further oddities seen while reading, not stated as theorems:

* `propagate_straight_line` returns the time step of the last particle only.
* Uniform integers are documented as half-open but include the upper bound.
* In five-pion reactions `type_p`/`type_anti_p` are dereferenced before the null check.
* `has_anti_multiplet` compares a state name with a multiplet name; three-body multiplet decays use the spin of the second daughter for the third.
* Proton-proton elastic exceeds the total parametrisation for laboratory momenta of about 0.40 to 0.43 GeV.
* `operator<<` for the density types Charge and Strangeness sets the fail bit of the stream.
* `get_partial_width` has no threshold check of its own for three-body decays: it returns the pole width below threshold.
* `DecayAction::generate_final_state` carries on silently after 1000 failed tries with potentials.
* In a sphere with two jets the reference to the first jet particle is used after the second has been created; the spin of the second is not set.
* A particle exactly at the centre of a sphere with flow gets velocities that are not numbers.
* Momentum dependent potentials without Skyrme use uninitialised parameters of the Skyrme potential.
* The electric field is integrated from the rest frame charge density instead of the charge density.
