import json
P=[]
def p(title,statement,quant,why,*anchors):
    P.append(dict(id="C%02d"%(len(P)+1),title=title,statement=statement,quantifier=quant,why_tests_cant=why,anchors=list(anchors)))
HIST="A unit test runs a handful of operation sequences; the claim is about every history of calls."
INP="A unit test samples a few inputs out of an unbounded (or astronomically large) input space."
S="src/"
I="src/include/smash/"
p("Particle IDs are fresh and unique","Between two calls of reset(), every particle stored by insert/create/replace gets an ID strictly larger than every ID handed out before, and no two particles that are simultaneously in the container share an ID, even after removals have made slots reusable.","every finite sequence of insert/create/remove/replace/update/reset calls on a Particles object",HIST,I+"particles.h: Particles::insert, Particles::remove, Particles::replace",S+"particles.cc: Particles::copy_in, Particles::reset")
p("The particle container stores exactly what was put in and not taken out","Iterating over a Particles object yields exactly the particles that were inserted and not removed since (each once, with the payload last written), and size() is their number, whatever holes removals have created.","every finite sequence of container operations",HIST,I+"particles.h: Particles::size, Particles::begin, Particles::remove",S+"particles.cc: Particles::insert, Particles::replace, Particles::reset")
p("Container operations never touch memory outside the storage","Whenever the caller passes only particles that is_valid accepts, every slot index the container reads or writes (including the one-past-the-end slot inspected by the iterators and the indices on the hole stack) lies inside the allocated array and inside its initialised part.","every reachable container state and every operation with valid arguments",HIST,I+"particles.h: Particles::ensure_capacity, Particles::GenericIterator",S+"particles.cc: Particles::increase_capacity")
p("A stale copy of a particle is never accepted","A copy of a particle is accepted by is_valid exactly when the particle with that ID is still in the container with the same process ID; once the particle was removed or replaced (or took part in another process) the copy is rejected for ever, at least until reset(). Hence an outdated action can never be performed.","every copy taken at any time and every later history without reset",HIST,I+"particles.h: Particles::is_valid",S+"action.cc: Action::is_valid")
p("Replacing incoming by outgoing particles is atomic and exact","After replace(in, out) the container holds precisely the old particles without `in` plus `out`; the outgoing list carries the new IDs under which the particles can be looked up, and all other particles are unchanged. The size changes by |out| - |in|.","every reachable container state and every pair of particle lists with `in` valid and duplicate free",HIST,S+"particles.cc: Particles::replace",S+"action.cc: Action::perform")
p("is_empty() means that there are no particles","is_empty() returns true exactly when size() is 0.","every reachable container state",HIST,I+"particles.h: Particles::is_empty, Particles::size")
p("The action queue hands out actions in time order","Whatever is inserted and popped in whatever order, pop() returns an action of minimal execution time among those in the queue, no action is lost or duplicated, and draining the queue yields non-decreasing times; pop() on an empty queue throws.","every sequence of construct/insert/pop/clear calls and every collection of execution times (ties included)","Heap order depends on the shape reached by the whole insertion history; only finitely many shapes are tested.",I+"actions.h: Actions::Actions, Actions::insert, Actions::pop, Actions::earliest_time")
p("The uniform clock ticks forward and stops exactly at the end time","Successive ticks of a UniformClock give non-decreasing times, strictly increasing before the end, that never exceed the end time, reach it exactly after finitely many ticks, and whose reported timestep durations add up to exactly the simulated time span.","every valid (start, step, end) triple and every number of ticks","The number of ticks and the rounding of the last shortened step vary without bound.",I+"clock.h: UniformClock::current_time, UniformClock::next_time, UniformClock::timestep_duration, UniformClock::operator++")
p("Clock arithmetic reports overflow instead of wrapping","Advancing a uniform clock by any number of ticks, or by a duration, either yields the mathematically exact time or throws; it never wraps around to an earlier time.","every 64-bit clock state and every tick count","Overflow needs extreme values that no test enumerates.",I+"clock.h: UniformClock::operator+=, Clock::operator+=, UniformClock::next_time")
p("A custom output clock yields each requested time once, in order","A CustomClock visits the user's output times in increasing order irrespective of the order in which they were given, never visits a time at or before the start time after remove_times_in_past, and throws when asked past its last time.","every list of output times and every start time",INP,I+"clock.h: CustomClock::CustomClock, CustomClock::remove_times_in_past, CustomClock::current_time, CustomClock::next_time")
p("Every particle is put into exactly one grid cell","When the collision-finding grid is built, each particle whose cross-section scaling factor becomes positive within the step is in exactly one cell, at a cell index inside the cell array, and the cell is the one that contains its position; no particle is lost or duplicated.","every particle list, every box, every minimal cell length",INP,S+"grid.cc: Grid<O>::Grid, Grid::make_index",I+"grid.h: Grid")
p("The non-periodic grid search meets every close pair exactly once","Iterating over the cells of the normal grid presents every unordered pair of distinct particles that are closer than the minimal cell length exactly once (either within a cell or in one search-cell/neighbour-cell call) and presents no pair twice.","every grid size and every placement of particles","The border cases depend on the cell counts in three directions; the claim is for all of them.",S+"grid.cc: Grid<GridOptions::Normal>::iterate_cells")
p("The periodic grid search meets every close pair exactly once","Iterating over the cells of the periodic grid presents every unordered pair of particles that are within one cell length of each other under periodic images exactly once, with the neighbour coordinates shifted to the nearest image.","every periodic grid with at least two cells per direction and every placement of particles","The wrap-around cases for 2, 3 and more cells per direction interact; the claim is for all sizes.",S+"grid.cc: Grid<GridOptions::PeriodicBoundaries>::iterate_cells")
p("PDG codes survive printing and parsing","A PDG code accepted by PdgCode is recovered exactly by printing it (string(), get_decimal()) and parsing the result, and distinct codes print differently.","every valid PDG code",INP,I+"pdgcode.h: PdgCode::set_from_string, PdgCode::string, PdgCode::get_decimal, PdgCode::from_decimal",S+"pdgcode.cc")
p("Antiparticles carry opposite quantum numbers","get_antiparticle is an involution on codes that have an antiparticle; it negates charge, baryon number, strangeness, charmness, bottomness and isospin projection, and preserves spin; a code without antiparticle is neutral in all of them.","every PDG code (hadron, lepton, nucleus)",INP,I+"pdgcode.h: PdgCode::get_antiparticle, PdgCode::has_antiparticle, PdgCode::charge, PdgCode::baryon_number",S+"pdgcode.cc: PdgCode::net_quark_number")
p("Quantum numbers of a hadron come from its quark content","For every hadron code the electric charge is an integer and obeys the generalised Gell-Mann-Nishijima relation 2Q = 2I3 + B + S + C + B' + T with the quantum numbers the class reports.","every hadron PDG code",INP,I+"pdgcode.h: PdgCode::charge, PdgCode::isospin3, PdgCode::strangeness, PdgCode::charmness, PdgCode::bottomness")
p("Malformed PDG strings are rejected","A string that is not a well formed PDG number (wrong length, non-digits, digits outside the encodable range) is rejected with an exception and never silently turned into another particle.","every input string",INP,I+"pdgcode.h: PdgCode::set_from_string, PdgCode::get_digit_from_char, PdgCode::set_fields")
p("Lattice indexing is a bijection and neighbours stay on the lattice","The 1d index of a lattice node and its (ix,iy,iz) coordinates determine each other; the left/right/up/down/backward/forward neighbour of a node is always a node of the lattice, is the node one step away (wrapping if periodic, clamped otherwise), and left and right invert each other where no clamping happens.","every lattice size (all three dimensions positive), periodic or not, and every node",INP,I+"lattice.h: RectangularLattice::index1d, RectangularLattice::index_left, RectangularLattice::cell_center, RectangularLattice::node")
p("Sub-lattice iteration visits exactly the requested nodes","iterate_in_cube/iterate_in_rectangle visit exactly the lattice nodes whose cell centres lie in the half-open cube around the point (all periodic images included if periodic), each once, and touch no memory outside the lattice.","every lattice, every centre point, every radius",INP,I+"lattice.h: RectangularLattice::iterate_sublattice, RectangularLattice::iterate_in_cube, RectangularLattice::positive_modulo")
p("Lattice gradients are exact for affine fields","compute_gradient_lattice returns the exact gradient of every affine scalar field on every node of a non-periodic lattice (including border nodes) and the exact central difference on a periodic one.","every lattice size with at least two nodes per direction and every affine field",INP,I+"lattice.h: RectangularLattice::compute_gradient_lattice")
p("Resizing a lattice keeps storage and geometry consistent","After reset_and_resize every node index that the new geometry produces is inside the storage.","every old and new geometry",INP,I+"lattice.h: RectangularLattice::reset_and_resize")
p("Periodic boundary conditions put particles back into the box","After enforcing periodic boundaries a coordinate in [-L, 2L) lies in [0, L), differs from the original by a multiple of L, and the function reports whether something was changed; it is the identity on points already inside.","every box length and every position less than one box length outside the box",INP,I+"algorithms.h: enforce_periodic_boundaries",S+"boxmodus.cc: BoxModus::impose_boundary_conditions")
p("Wall crossings are found at the right time and place","For every particle inside the box that leaves it during the step, the wall-crossing finder returns exactly one action at the earliest time at which a coordinate reaches a wall, and the outgoing particle sits on the opposite wall with unchanged momentum; particles that stay inside get none.","every box, position, velocity and step length",INP,S+"wallcrossingaction.cc: WallCrossActionsFinder::find_actions_in_cell")
p("SHA-256 digests do not depend on how the input is chunked","For every byte string and every way of cutting it into successive update() calls, finalize() returns the FIPS 180-4 SHA-256 digest of the whole string; digests written as hex strings are 64 lower-case hex characters and determine the digest.","every byte string shorter than 2^61 bytes and every split into chunks",INP,S+"sha256.cc: Context::update, Context::finalize, Context::transform_block, hash_to_string",I+"sha256.h")
p("The tabulation lock is exclusive and never stolen","At any time at most one FileLock object owns the lock file of a given path; only the owner's destructor removes it; a process that crashed keeps others out (they work without cache) but never lets two owners in.","every interleaving of acquire/destroy/crash by any number of processes","The property is about every schedule and crash point.",S+"filelock.cc: FileLock::acquire, FileLock::~FileLock")
p("Output files get their final name only when complete","At every crash point the final output file name exists only if the file was closed after everything had been written and no exception was in flight; otherwise the data is under the .unfinished name.","every sequence of writes, every crash point and every exception","The property is about every crash point.",S+"file.cc: RenamingFilePtr::RenamingFilePtr, RenamingFilePtr::~RenamingFilePtr",I+"file.h: RenamingFilePtr")
p("String helpers obey their algebra","trim is idempotent and removes exactly leading/trailing white space; remove_substr leaves no occurrence of the pattern; split and join are inverse on non-degenerate input; padding never truncates and reaches at least the requested width.","every string and pattern",INP,S+"stringfunctions.cc: trim, remove_substr, split, join, utf8::fill_left, utf8::fill_right, utf8::fill_both")
p("The input line parser keeps exactly the meaningful lines","line_parser returns, in order and with their true line numbers, exactly the lines that contain something besides white space and comments, with comments stripped.","every input text",INP,S+"inputfunctions.cc: line_parser")
p("Lorentz boosts are Lorentz transformations","lorentz_boost with |v|<1 preserves the Minkowski product of any two four-vectors, boosting by v and then by -v is the identity, and boosting a time-like momentum by its own velocity brings it to rest.","every pair of four-vectors and every subluminal velocity",INP,S+"fourvector.cc: FourVector::lorentz_boost",I+"fourvector.h: FourVector::Dot, FourVector::velocity")
p("Centre-of-mass momentum solves the two-body energy balance","For masses ma, mb >= 0 and sqrt(s) >= ma+mb, pCM is real, symmetric in the masses and satisfies sqrt(p^2+ma^2)+sqrt(p^2+mb^2)=sqrt(s); below threshold it is 0.","all masses and energies",INP,I+"kinematics.h: pCM, pCM_sqr, pCM_from_s, pCM_sqr_from_s")
p("Beam energy conversions agree with the invariant mass","s_from_Etot, s_from_Ekin and s_from_plab (fixed target and two-beam versions) return the squared invariant mass of the two-particle system with the given masses and energies/momenta, and plab_from_s inverts s_from_plab.","all positive masses, energies and momenta",INP,I+"kinematics.h: s_from_Etot, s_from_Ekin, s_from_plab, plab_from_s")
p("Channel selection never fails and follows the weights","Given positive channel weights and the total accumulated while adding them, choose_channel always returns one of the channels, never aborts, never returns a channel of zero weight, and returns channel i exactly for a set of random numbers of length w_i.","every list of channels with non-negative weights and every random number in [0,total)",INP,I+"action.h: Action::choose_channel, Action::add_process, Action::add_processes")
p("Non-conserving interactions are stopped","check_conservation accepts (returns) only if total momentum, charge, isospin projection, strangeness, charm, bottom and baryon number of incoming and outgoing particles agree, or the process is one of the documented exceptions (string, weak decay of a stable particle, free-for-all); otherwise an exception is thrown before the event continues.","all incoming/outgoing lists and all process types",INP,S+"action.cc: Action::check_conservation",I+"quantumnumbers.h: QuantumNumbers::operator==")
p("Sampled final states conserve four-momentum and masses","For every number of particles, every set of positive masses with sum below sqrt(s) and every choice of random numbers, the n-body (M-method) phase-space sampler and the two-body sampler produce momenta with the requested masses whose sum is (sqrt(s),0,0,0); after boosting with the total velocity the sum is the total four-momentum.","all n >= 2, masses, energies and random numbers",INP,S+"action.cc: Action::sample_manybody_phasespace_impl, Action::sample_angles, Action::sample_2body_phasespace")
p("Collision history is updated consistently","Performing an action sets process ID, process type, mother codes and collision counter of every outgoing particle according to its process type, and never for wall crossings.","every process type and every incoming particle list",INP,S+"particledata.cc: ParticleData::set_history",S+"action.cc: Action::perform")
p("The cross-section scaling factor stays in [0,1] and ends at 1","xsec_scaling_factor is between the initial factor and 1, non-decreasing in time, equals the initial factor before the formation process starts and 1 once the particle is formed.","all formation times, initial factors in [0,1], exponents and times",INP,S+"particledata.cc: ParticleData::xsec_scaling_factor")
p("Branching ratios are normalised","After renormalize the branching ratios of a particle are non-negative and sum to 1 (up to the tolerance below which renormalisation is skipped), and their relative sizes are unchanged; repeated modes are merged rather than duplicated.","every list of decay modes with positive ratios",INP,S+"decaymodes.cc: DecayModes::renormalize, DecayModes::add_mode")
p("A decay mode is rejected exactly when angular momentum forbids it","A decay with orbital angular momentum L is accepted exactly if L and the spins of the daughters can couple to the spin of the mother.","all spins and all L",INP,S+"decaymodes.cc: min_angular_momentum, DecayModes::load_decaymodes")
p("Isospin couplings are the Clebsch-Gordan coefficients","Every entry of the built-in table is the Clebsch-Gordan coefficient for its arguments to double precision, every non-zero coefficient with both isospins up to 3/2 is in the table, and the three-body coupling is used only when the intermediate isospin is unique.","all table entries; all isospins",INP,I+"clebschgordan_lookup.h: ClebschGordan::lookup_table",S+"clebschgordan.cc: isospin_clebsch_gordan_sqr_3to1")
p("Configuration keys are consumed exactly once","take(key) returns the value stored under the key and removes it and only it (with sections that become empty); every other key keeps its value; taking the key again is an error; when every key was taken the object is empty, otherwise its destruction reports the unused keys.","every configuration tree and every sequence of take/read calls",HIST,I+"configuration.h: Configuration::take, Configuration::read, Configuration::has_value",S+"configuration.cc: Configuration::take, remove_empty_maps, Configuration::~Configuration")
p("Merging configurations overrides exactly the given keys","After merge_yaml every key present in the merged text has the new value and every key that the merged text does not mention keeps its old value.","every pair of configuration trees",INP,S+"configuration.cc: operator|=, Configuration::merge_yaml")
p("Linear tabulations interpolate","get_value_linear reproduces the tabulated function at every grid point, lies between the two neighbouring tabulated values inside the range, is 0 below the range, follows the chosen extrapolation above it, and never reads outside the table.","every table with at least 3 values and every argument",INP,S+"tabulation.cc: Tabulation::Tabulation, Tabulation::get_value_linear, Tabulation::get_value_step")
p("A cached tabulation is used only for the configuration it was made for","Tabulation::from_file returns the table that write stored if and only if the stored hash equals the expected one; otherwise it returns an empty table.","every table and every pair of hashes",INP,S+"tabulation.cc: Tabulation::write, Tabulation::from_file")
p("Incremental averages are averages","Average<T>::average() equals the arithmetic mean of all added values after any number of additions; dedup_avg replaces each run of equal x by one x and the mean of its y values.","every sequence of values",INP,I+"average.h: Average::add, dedup_avg")
p("Piecewise linear interpolation passes through the data","InterpolateDataLinear sorts its data, hits every data point exactly, agrees with the straight line between neighbours in between, and rejects duplicate x values.","every data set with at least two points and every argument",INP,I+"interpolation.h: InterpolateDataLinear, find_index, generate_sort_permutation, check_duplicates")
p("Interactions are executed in time order and only when still possible","Within a timestep the performed interactions have non-decreasing execution times not after the end of the step, each performed interaction had all its incoming particles valid at that moment, and all particles have been propagated to the interaction time.","every initial action list, every set of newly found actions, every outcome of the interactions","The order depends on the whole dynamic schedule of the event.",I+"experiment.h: Experiment::run_time_evolution_timestepless, Experiment::perform_action")
p("Intermediate output is written once per requested time, in order","During the time evolution of an event, intermediate output is produced exactly once for every output time in (start, end) in increasing order, independent of the timestep size.","every timestep, output interval and end time",INP,I+"experiment.h: Experiment::run_time_evolution, Experiment::intermediate_output",I+"clock.h")
p("The run stops after the right number of events","With a fixed number of events exactly that many events are run; with a minimum number of non-empty ensembles the run stops at the first event at which the minimum is reached or after the maximal number of ensembles, whichever comes first.","every sequence of event outcomes",HIST,I+"experiment.h: Experiment::is_finished, Experiment::run, Experiment::count_nonempty_ensembles")
p("Interaction counters add up","The interactions performed in an event get the process IDs 1, 2, 3, ... in the order in which they are performed, so that an ID is unique within the event and positive; the numbers of interactions per interval reported at the intermediate outputs and at the end add up to the performed interactions without wall crossings; the event is aborted before the 32-bit IDs overflow.","every sequence of interactions",HIST,I+"experiment.h: Experiment::perform_action, Experiment::intermediate_output, Experiment::final_output")
p("Nuclear beam momenta refer to the current event","In every event the beam momentum used for a not yet collided initial nucleon is the one assigned to that nucleon in this event, and particles produced later never use one.","every number of events and every particle history",HIST,I+"experiment.h: Experiment::initialize_new_event",S+"propagation.cc: propagate_straight_line",I+"scatteractionsfinder.h: ScatterActionsFinder::collision_time")
p("Forced thermalisation conserves B, S and Q","The particles sampled by the BF thermalisation algorithm carry exactly the baryon number, strangeness and charge of the removed ones.","every outcome of the random sampling and every hadron list whose classes are unit charged",INP,S+"grandcan_thermalizer.cc: GrandCanThermalizer::thermalize_BF_algo, GrandCanThermalizer::sample_multinomial",S+"random.cc: BesselSampler::sample")
p("The binary output is parseable without ambiguity","The stream written by the binary output for any sequence of event blocks can be parsed back to exactly this sequence of blocks (lossless and uniquely decodable).","every sequence of events, particle lists and interactions",INP,S+"binaryoutput.cc: BinaryOutputBase::write, BinaryOutputParticles, BinaryOutputCollisions",I+"outputformatter.h: ToBinary")
p("Collision candidates are real pairs within the step","A two-particle collision is proposed only for distinct particles, each unordered pair of a cell at most once, with 0 <= collision time < dt, never between two untouched nucleons of the same nucleus (if that is disabled), never for a pair that just collided with each other, and the geometric collision time is the time of closest approach.","every particle list and every step",INP,S+"scatteractionsfinder.cc: ScatterActionsFinder::check_collision_two_part, ScatterActionsFinder::find_actions_in_cell, ScatterActionsFinder::find_actions_with_surrounding_particles",I+"scatteractionsfinder.h: ScatterActionsFinder::collision_time")
p("Reading particle lists loses no event","ListModus returns the events of its input file(s) in order, each exactly once, and reports an error when asked for more events than there are.","every list of events and every file layout the documentation allows",INP,S+"listmodus.cc: ListModus::next_event_, ListModus::file_has_events_")
p("Restricted random numbers stay in their range","expo, power, cauchy and beta_a0 return a number inside the requested interval for every underlying uniform random number, and their sampling loops terminate whenever the interval is not empty.","all parameters and all uniform random numbers",INP,I+"random.h: expo, power, cauchy, beta_a0")
p("Numeric conversions are exact or rejected","numeric_cast returns a value equal to its argument or throws.","every pair of integer types and every value",INP,I+"numeric_cast.h: numeric_cast")
p("Particle types are found by PDG code exactly when they exist","ParticleType::find(code) returns the type with that code if it was in the input and throws otherwise; no code is loaded twice; for every loaded particle with antiparticle the antiparticle is loaded too.","every particle file",INP,S+"particletype.cc: ParticleType::create_type_list, ParticleType::try_find, ParticleType::find")
p("Free streaming is straight-line motion","Propagating all particles to a time t moves each particle by velocity times elapsed time and sets its time to t; propagating in several steps equals propagating in one; backpropagation inverts propagation.","every particle list and every sequence of target times",INP,S+"propagation.cc: propagate_straight_line, backpropagate_straight_line")
p("Four-vector comparisons mean what they say","operator< holds iff all components are smaller and operator<= iff all components are smaller or equal (as documented); == is reflexive and symmetric.","every pair of four-vectors",INP,I+"fourvector.h: FourVector::operator<, FourVector::operator<=, FourVector::operator>=",I+"numerics.h: almost_equal_physics")
p("Hypersurface crossings are detected once and on the hypersurface","A particle moving in a straight line is reported to cross the hyperbola of constant proper time during a step exactly if it is outside before and inside after, and the reported point lies on the hyperbola and on the particle's path.","every trajectory, proper time and step",INP,S+"hypersurfacecrossingfinder.cc: HyperSurfaceCrossActionsFinder::crosses_hypersurface, coordinates_on_hypersurface")
p("The action queue iterates from the earliest action","begin() of the action queue refers to an action of minimal execution time, as documented.","every queue content",INP,I+"actions.h: Actions::begin")
p("Quark content and quark counts agree","For every hadron, the triple returned by quark_content contains each flavour (antiquarks negative) as often as net_quark_number reports.","every hadron code",INP,I+"pdgcode.h: PdgCode::quark_content",S+"pdgcode.cc: PdgCode::net_quark_number")
p("Particle classes partition the codes","Hadrons, nuclei and leptons are disjoint; a hadron is a baryon or a meson but not both; a hyperon is a baryon and exactly one of Lambda, Sigma, Xi, Omega.","every PDG code",INP,I+"pdgcode.h: PdgCode::is_hadron, is_nucleus, is_lepton, is_baryon, is_meson, is_hyperon, is_Lambda, is_Sigma, is_Xi, is_Omega")
p("is_antiparticle_of identifies exactly the antiparticle","d.is_antiparticle_of(e) holds exactly if d equals e.get_antiparticle().","every pair of non-zero codes",INP,I+"pdgcode.h: PdgCode::is_antiparticle_of, PdgCode::code, PdgCode::get_antiparticle")
p("Lattice lookup returns the value of the cell containing the point","value_at(r) returns true and the value of the cell containing r (up to whole periods if the lattice is periodic), and false with the default value if r is outside a non-periodic lattice.","every lattice and every point",INP,I+"lattice.h: RectangularLattice::value_at, RectangularLattice::node, RectangularLattice::positive_modulo")
p("Nearest-neighbour iteration stays on the lattice","iterate_nearest_neighbors calls its function for the node containing the point and its six neighbours, with the centre node's index as last argument, and never accesses memory outside the lattice.","every lattice and every point",INP,I+"lattice.h: RectangularLattice::iterate_nearest_neighbors")
p("Rotations keep lengths and angles, direction angles stay in range","Every rotation of a three-vector preserves inner products; rotate_z_axis_to turns the z axis into the direction of its argument; an Angles object always has phi in [0, 2 pi) and cos(theta) in [-1, 1], and describes a unit vector.","every vector, every angle and every sequence of setter calls",INP,I+"threevector.h: ThreeVector::rotate, rotate_around_y, rotate_around_z, rotate_z_axis_to",I+"angles.h: Angles::set_phi, set_costheta, set_theta, add_to_theta, threevec")
p("Collision kinematics helpers agree with two-body kinematics","center_of_velocity_v and fixed_target_projectile_v return the velocity (below 1) with which particles of the given masses have the given invariant mass; get_t_range returns the momentum transfers of forward and backward scattering and every other scattering angle lies in between.","all masses and energies above threshold",INP,I+"kinematics.h: center_of_velocity_v, fixed_target_projectile_v, get_t_range")
p("The spin vector is orthogonal to the momentum","The four-vector set for an unpolarised massive particle is the boost of a rest-frame spin (0, s): its square is minus the length of s squared and it is orthogonal to the particle's four-momentum (Pauli-Lubanski).","every momentum of a massive particle and every drawn spin",INP,S+"particledata.cc: ParticleData::set_unpolarized_spin_vector")
p("Reported weights of a collision are consistent","At every output the partial weight reported for the chosen channel never exceeds the reported total weight of the interaction.","every set of channels, with and without parametrised total cross section",INP,S+"scatteraction.cc: ScatterAction::get_total_weight, get_partial_weight, rescale_outgoing_branches")
p("Loaded decay modes conserve charge and fit the mother's mass","After load_decaymodes succeeds, every decay mode of every particle, including those generated for antiparticles, has two or three daughters whose charges sum to the charge of the mother and, for unstable particles, whose minimal masses sum to less than the mother's pole mass.","every decay modes file and every particle table",INP,S+"decaymodes.cc: DecayModes::load_decaymodes, DecayModes::add_mode")
p("Configuration sections are moved whole","extract_sub_configuration and extract_complete_sub_configuration move exactly the keys of the section into the new configuration and leave all others; set_value gives the key its value and leaves every key alone that can coexist with it; remove_all_entries_in_section_but_one removes exactly the other entries of the section.","every configuration tree and every section",INP,S+"configuration.cc: Configuration::extract_sub_configuration, enclose_into_section, remove_all_entries_in_section_but_one",I+"configuration.h: Configuration::set_value")
p("Validation reports the worst key","validate returns Invalid iff some key of the configuration is unknown or removed, Deprecated iff all are known and one is deprecated, and Valid otherwise; the short validation agrees on validity. It is defined for every configuration.","every configuration tree and every database of keys",INP,S+"configuration.cc: Configuration::validate, validate_key, accumulate_validation, adjust_list_of_labels_dealing_with_keys_taken_as_maps")
p("Trilinear and spline interpolation respect the data","interpolate_trilinear reproduces the eight corner values, is affine in each fraction and stays between the bounds of the corner values inside the cube; InterpolateDataSpline accepts exactly data with at least three different x, and is constant outside of the data with the y of the outermost points.","every set of corner values, every data set and every argument",INP,I+"interpolation.h: interpolate_trilinear, InterpolateDataSpline",S+"interpolation.cc: InterpolateDataSpline")
p("Thermalised particles get the required four-momentum", "After forced thermalisation the new particles keep their masses, are on the mass shell and have in total the four-momentum of the removed particles.", "every list of sampled particles and every required four-momentum", INP, S+"grandcan_thermalizer.cc: GrandCanThermalizer::renormalize_momenta")
p("Output columns are exactly the requested quantities", "A list of output quantities is accepted exactly when it is not empty, repeats nothing, contains only documented keys and no two synonyms; with an accepted list every particle line of the text and binary formats has exactly one column per quantity, in the order of the list, holding the documented property in the documented type; the header and unit lines have one entry per quantity; and writing a long particle list in chunks gives the same bytes as writing it at once.", "every list of quantities, every particle list and every buffer size", INP, I+"outputformatter.h: OutputFormatter, validate_quantities, append_to_buffer, quantities_line, unit_line, write_in_chunk_impl")
p("The collision distance is the closest approach in the centre-of-momentum frame", "The distance compared with the cross section is the smallest distance of the two straight trajectories in the centre-of-momentum frame of the pair, for the geometric and for the covariant criterion alike; the covariant collision time is the mean of the two times at which the particles pass the points of closest approach; the velocity of the stochastic criterion is the Moller velocity.", "all positions and momenta of a pair that has a centre-of-momentum frame", INP, S+"scatteraction.cc: ScatterAction::transverse_distance_sqr, cov_transverse_distance_sqr, relative_velocity", I+"scatteractionsfinder.h: ScatterActionsFinder::collision_time")
p("Forming particles have a growing cross section", "The cross section scaling factor of a particle lies between its initial factor and 1, is the initial factor before formation begins and 1 once the particle is formed, and never decreases with time.", "every formation time, formation power and initial factor in [0, 1]", INP, S+"particledata.cc: ParticleData::xsec_scaling_factor")
p("Space expands at the documented rate", "With an expanding metric every step stretches all positions by 1 + H dt and shrinks all momenta by 1 - H dt, keeps every particle on its mass shell, and H is the logarithmic time derivative of the documented scale factor.", "every metric, expansion rate, time and particle list", INP, S+"propagation.cc: calc_hubble, expand_space_time")
p("Isospin multiplets group the particle types by name", "After the particle file is loaded every type belongs to exactly one multiplet, the one named like the type without its charge suffix; a multiplet is found by name exactly if it has states, and lists every state once; states and their antiparticles are named after the line of the file, with the suffix of their charge and a bar where the antiparticle is a different kind of hadron; a state is found by its full name exactly if a type has that name.", "every particle file that is accepted, every name", INP, S+"isoparticletype.cc: IsoParticleType::create_multiplet, IsoParticleType::find, IsoParticleType::find_state, multiplet_name", S+"particletype.cc: antiname, chargestr")
p("Generated random seeds", "A randomly generated seed is a non-negative 64-bit integer, so that it can be written to a configuration and read back as a fixed seed, and every non-negative 64-bit integer can be generated, all equally likely.", "all outcomes of the random device", INP, S+"random.cc: generate_63bit_seed")
p("Ratio of Bessel functions in the number sampler", "The ratio of modified Bessel functions of neighbouring order used to sample particle numbers lies between the bounds a/(sqrt(a^2+(n+1)^2)+n+1) and a/(sqrt(a^2+n^2)+n) that the code documents and asserts.", "all orders and positive arguments", INP, S+"random.cc: BesselSampler::r_")
p("Particles from external data are on the mass shell", "A particle created from externally given species, mass, position and momentum keeps the given position and three-momentum; its energy is such that the squared mass agrees within 1e-6 with the given mass, or with the mass of the species if that is stable and the given mass differs by more than 1e-6; the given energy is kept whenever it is consistent. Data containing NaN and unknown species are refused.", "all species, masses, positions and momenta", INP, S+"particledata.cc: create_valid_smash_particle_matching_provided_quantities", S+"listmodus.cc: ListModus::try_create_particle")
p("Particles read from a list start at a common time", "After an event has been read from a particle list the returned start time is the earliest time of its particles, and either all particles were moved to it on straight lines or their times agree with it within 1e-6; a list is refused exactly if three particles share their printed position.", "all lists of particles", INP, S+"listmodus.cc: ListModus::initial_conditions, ListModus::backpropagate_to_same_time_if_needed_, is_list_of_particles_invalid")
p("String ends carry the flavour of the hadron", "The two ends of a string made from a hadron together carry exactly the flavour of the hadron; one is a quark or an antidiquark and the other an antiquark or a diquark; a diquark made from two quarks is a valid one and is taken apart into the same two.", "all hadrons of the five flavours and all random choices", INP, S+"stringprocess.cc: StringProcess::make_string_ends, diquark_from_quarks, quarks_from_diquark")
p("Flavour of a hard string event is restored", "A hard string event generated with mapped hadrons is given the net flavour of the actual incoming hadrons, without changing the number of partons; the procedure always ends, and it refuses an event exactly if there are not enough constituents to convert, after using the gluons of the event.", "all incoming hadrons, all events and all random choices", INP, S+"stringprocess.cc: StringProcess::find_excess_constituent, replace_constituent, rearrange_excess, restore_constituent, splitting_gluon_qqbar")
p("Hadrons made from string ends have their quantum numbers", "A string that is turned into a resonance gives the one with the closest pole mass among the resonances of the baryon number and flavour of the string that can have its mass, and gives none exactly if there is none; the leading hadron of a string has the baryon number and flavour of the ends it is made from.", "all particle tables, string ends, masses and random numbers", INP, S+"stringprocess.cc: StringProcess::get_resonance_from_quark, get_hadrontype_from_quark")
p("Leading hadrons get the scaling factors", "Among the fragments of a string exactly the leading hadrons, one from each end, get a cross section scaling factor: half the suppression factor for mesons and the fraction of leading quarks for baryons; all other fragments get zero; every factor is between zero and the suppression factor.", "all fragment lists with the baryon number of the string", INP, S+"stringprocess.cc: StringProcess::assign_all_scaling_factors, find_leading, assign_scaling_factor", S+"pdgcode.cc: PdgCode::contains_enough_valence_quarks")
p("String excitation conserves energy and momentum", "In every soft string process the produced strings and hadrons together have the energy and momentum of the incoming hadrons and the hadrons are on their mass shells; string ends are exchanged without changing the total flavour; fragments boosted from the rest frame of a string have its momentum and form after the collision; the last two fragments take exactly the light-cone momentum that is left.", "all incoming momenta, all random choices", INP, S+"stringprocess.cc: StringProcess::next_SDiff, next_DDiff, next_NDiffSoft, make_orthonormal_basis, append_final_state, make_lightcone_final_two, sample_zLund")
p("Hadrons are mapped to ones PYTHIA knows", "The hadron handed to PYTHIA in place of an incoming one has the same baryon number and the same numbers of quarks and antiquarks, never a charge of the opposite sign, and is neutral if the incoming hadron is; every hadron and lepton is mapped.", "all PDG codes", INP, S+"stringprocess.cc: StringProcess::pdg_map_for_pythia")
p("Nuclei are set up as configured", "A nucleus contains the configured number of particles of every species times the number of test particles and reports these numbers. After its nucleons are placed, whatever positions and orientation are drawn, they are at rest, their centre is at the origin and their distances are those drawn. Fermi momenta leave the nucleons on their mass shells with total momentum zero, do not touch other particles, and fill the Fermi sphere of the local density uniformly. The boost of a nucleus is the Lorentz boost of all momenta and contracts lengths along the beam by the Lorentz factor.", "all particle lists, test particle numbers, positions, angles and momenta drawn, all velocities below 1", INP, S+"nucleus.cc", I+"nucleus.h: Nucleus")
p("The requested collision energy is the one set up", "Whichever single way is used to give the collision energy, the two nuclei move towards each other below the speed of light with exactly this energy: the invariant mass of all particles set up (without Fermi motion) is the requested one in every calculation frame, the frame condition holds (opposite velocities, zero total momentum, or target at rest), and the energy per nucleon pair belongs to the same relative velocity. No option or several options are refused.", "all energies, frames, nuclei, test particle numbers and positions drawn", INP, S+"collidermodus.cc: ColliderModus, initial_conditions, get_velocities", I+"kinematics.h")
p("Nuclei touch at time zero", "All particles of a collider event start at the same time, which is also their formation time. The start time and positions are such that the centres, moving with the beam velocities, are at time zero where the Lorentz contracted nuclei touch at z = 0; the transverse distance of the centres is the impact parameter, symmetric around the origin and in the direction of the reaction plane, for all positions and momenta drawn.", "all energies, frames, displacements, impact parameters, reaction planes and random draws", INP, S+"collidermodus.cc: initial_conditions, rotate_reaction_plane", S+"nucleus.cc: shift, boost")
p("Impact parameters follow the requested distribution", "Sampled impact parameters lie in the configured range; quadratic sampling is uniform in area; custom sampling returns a value drawn from the range that was accepted with its yield relative to the maximum.", "all ranges, yields and random numbers", INP, S+"collidermodus.cc: sample_impact")
p("Alpha-clustered nuclei are tetrahedra of alpha particles", "The centres of the clusters form a regular tetrahedron around the origin with the requested side length, and in every event each cluster contains two protons and two neutrons (times the number of test particles).", "all side lengths, test particle numbers and numbers of events", HIST, S+"alphaclusterednucleus.cc", I+"alphaclusterednucleus.h")
p("Custom nuclei are the ones of the file", "The nuclei read from a file are its consecutive blocks of lines, one block per event, starting again at the beginning of the file when it ends; positions and species are those of the lines, the nucleus they belong to is kept, and files whose blocks have other numbers of protons or neutrons than configured are refused.", "all files, nucleon numbers and numbers of events", HIST, S+"customnucleus.cc")
p("Nucleons follow the Woods-Saxon density", "The distance of a nucleon from the centre has a probability density proportional to r^2 / (1 + exp((r - R)/d)) for the radius R and diffusiveness d of the nucleus: the mixture of the sampled branches times the acceptance probability is exactly this function.", "all radii, diffusivenesses and distances", INP, S+"nucleus.cc: distribute_nucleon, woods_saxon")
p("Multi-particle reactions are the documented ones", "Three, four or five incoming particles that meet can react exactly in the documented ways (three mesons into an omega, phi or eta', pion- and nucleon-catalysed formation of light nuclei from two or three baryons, five pions into a nucleon-antinucleon pair), whatever the order in which the particles are given and only if the reaction type is switched on; every reaction conserves charge, baryon number and strangeness, and its statistical factor counts the spin states and the identical particles.", "all incoming particles in every order and all option settings", INP, S+"scatteractionmulti.cc: ScatterActionMulti::add_possible_reactions, three_different_pions, two_pions_eta, all_incoming_particles_are_pions_have_zero_charge_only", I+"scatteractionmulti.h")
p("Multi-particle reactions obey detailed balance", "The probability of a reaction of three, four or five particles in a cell and a time step is such that in equilibrium as many reactions go forward as backward; probabilities are non-negative and do not depend on the order of the incoming particles.", "all masses, energies, cross sections, cell volumes and time steps", INP, S+"scatteractionmulti.cc: probability_three_to_one, probability_three_to_two, probability_four_to_two, probability_five_to_two, parametrizaton_phi5_pions, calculate_I3")
p("Final-state cross sections add up", "The exclusive final-state cross sections printed for a pair contain only stable particles, are not negative, conserve charge, baryon number and strangeness, and add up to the sum of the partial cross sections; a process with one resonance is split according to its branching ratios.", "all particle tables, decay modes, energies and partial cross sections", INP, S+"scatteractionsfinder.cc: decaytree::Node, decaytree::add_decays, ScatterActionsFinder::dump_cross_sections")
p("The table of cross sections is complete", "The dump of cross sections prints, for every momentum requested and every channel, the sum of the cross sections of all processes with this description at this energy, each final state in one column.", "all lists of momenta and all processes", INP, S+"scatteractionsfinder.cc: deduplicate, ScatterActionsFinder::dump_cross_sections")
p("Pauli blocking follows the phase-space density", "A reaction is blocked exactly if for one of its outgoing baryons the random number drawn is below the phase-space density of identical particles around it, not counting the particles that react; wall crossings are never blocked. The density is the average over test particles and ensembles of the share of each particle's Gaussian inside the averaging volume, divided by the number of states in it.", "all particle positions, momenta, ensembles, parameters and random numbers", INP, S+"pauliblocking.cc: PauliBlocker::phasespace_dens, init_weights_analytical", S+"action.cc: Action::is_pauli_blocked")
p("Interactions happen between the particles", "An interaction happens at its execution time in the middle of the places the incoming particles have reached; in a box with periodic boundaries at a place inside the box that is half their periodic distance away from both, in every direction; with the stochastic criterion at the place of the chosen particle.", "all positions, velocities, times and box lengths", INP, S+"action.cc: Action::get_interaction_point")
p("Outgoing particles do not form before the incoming ones", "If all incoming particles of an interaction are formed, outgoing particles with full cross section are formed at once; otherwise no outgoing particle forms before the last of the incoming ones, fragments get the product of the scaling factors and other particles continue the formation of the incoming particle; scaling factors stay in [0,1].", "all incoming and outgoing particles and times", INP, S+"action.cc: Action::assign_formation_time_to_outgoing_particles")
p("The energy-momentum tensor is the sum over particles and transforms as a tensor", "Exactly the index pairs from 0 to 3 are accepted and name the ten stored components symmetrically; adding particles adds p^mu p^nu / p^0 (times their weights) to every component, so row 0 is the total four-momentum; boosting by a four-velocity gives the Lorentz transform of the tensor, is undone by the opposite boost and keeps the trace.", "all tensors, particle lists, weights and four-velocities", INP, S+"energymomentumtensor.cc add_particle boosted", I+"energymomentumtensor.h tmn_index operators")
p("The Landau frame of a tensor has no energy flow", "The frame returned for an energy-momentum tensor is a four-velocity; when the eigenvector of the largest eigenvalue is time-like, the tensor in this frame has no energy flux and its energy density is that eigenvalue; for tensors of particles a positive largest eigenvalue always has a time-like eigenvector.", "all tensors, particle lists and correct eigenvalue solvers", INP, S+"energymomentumtensor.cc landau_frame_4velocity")
p("Currents and their derivatives at a point", "A particle contributes to the current at a point its charge times (1, velocity) times a Gaussian of the rest-frame distance with a cut-off, normalised to one; the returned gradients are the derivatives of the smearing function, the derivatives satisfy the continuity equation exactly, and the rest frame density is the invariant length of the current.", "all particle lists, points, smearing widths and cut-offs", INP, S+"density.cc unnormalized_smearing_factor current_eckart update_lattice", I+"density.h smearing_factor_norm smearing_factor_rcut_correction DensityParameters")
p("Smearing on the lattice conserves the charge", "Adding particles to a density lattice with discrete or triangular smearing increases the lattice's total charge and flow by exactly those of the particles, divided by the numbers of test particles and ensembles.", "all particle lists, lattices, weights and ranges", INP, I+"density.h update_lattice_with_list_of_particles DensityOnLattice", I+"lattice.h iterate_nearest_neighbors iterate_in_rectangle")
p("Inelastic two-body channels conserve charge, baryon number and strangeness", "Every two-body final state offered for a pair of colliding particles has the electric charge, baryon number and strangeness of the pair and a non-negative cross section.", "all pairs of particle types, particle lists, energies and sets of enabled reactions", INP, S+"crosssections.cc two_to_two rare_two_to_two nn_xx nk_xx ypi_xx deltak_xx npi_yk dpi_xx dn_xx bb_xx_except_nn", S+"parametrizations.cc KaonNucleonRatios")
p("Strangeness exchange and kaon-Delta reactions obey detailed balance", "A reaction Y pi -> N Kbar or Delta K -> N K has exactly the cross section that detailed balance gives from the cross section of the opposite reaction, and the isospin ratios of the channels into K Delta are always defined and sum to one.", "all pairs, particle lists and energies", INP, S+"crosssections.cc nk_xx ypi_xx deltak_xx detailed_balance_factor_stable detailed_balance_factor_RK", S+"parametrizations.cc KaonNucleonRatios::get_ratio")
p("Cross sections do not depend on the order of the particles nor on matter versus antimatter", "Exchanging the two colliding particles gives the same final states with the same cross sections, and replacing both by their antiparticles gives the antiparticles of the final states with the same cross sections.", "all pairs, particle lists closed under charge conjugation, energies and sets of enabled reactions", INP, S+"crosssections.cc two_to_two rare_two_to_two")
p("The channels of a collision add up to the parametrised total cross section", "When strings are switched on by the transition probability, the cross sections of all channels of a pair add up to (1-p) times the low-energy channels plus p times the larger of the scaled high-energy total cross section and the elastic one; the string channels themselves are non-negative, contain no elastic part and add up to the inelastic part.", "all pairs, energies, parametrisations, diffractive cross sections and settings", INP, S+"crosssections.cc CrossSections::generate_collision_list string_excitation high_energy", S+"scatteraction.cc ScatterAction::add_all_scatterings")
p("The probability of strings rises smoothly from zero to one", "The probability with which a pair interacts by strings lies in [0,1], is 0 below and 1 above the transition region, and does not decrease with the energy.", "all pairs, energies and transition regions", INP, S+"crosssections.cc CrossSections::string_probability probability_transit_high get_transition_range")
p("All channels of a collision conserve charge, baryon number and strangeness", "Every channel offered for a pair - elastic, resonance, two-body, breakup and formation of nuclei, annihilation - conserves electric charge, baryon number and strangeness and has a non-negative cross section; pairs of a core and a corona particle only scatter elastically.", "all pairs, particle lists, energies and settings", INP, S+"crosssections.cc CrossSections::generate_collision_list two_to_one two_to_three two_to_four NNbar_annihilation", S+"scatteraction.cc ScatterAction::add_all_scatterings")
p("Elastic and total cross sections and string probabilities are symmetric", "Elastic and total parametrised cross sections and the string probability do not change when the two particles are exchanged or both are replaced by their antiparticles; the cross section of strings does not change when they are exchanged.", "all pairs, energies, parametrisations and settings", INP, S+"crosssections.cc CrossSections::elastic_parametrization parametrized_total high_energy string_probability")
p("Form factors of decays", "The Blatt-Weisskopf form factor is a number between 0 and 1 for every angular momentum and every momentum; it is 1 for L = 0, and for L > 0 it is 0 exactly at rest, grows strictly with the momentum, behaves like p^(2L) at small momenta and approaches 1 like 1 - c/p^2 at large ones. The additional form factor for unstable daughters is 1 at the pole mass and at the threshold, larger in between and smaller above.", "all angular momenta L >= 0, all momenta, all masses and cut-offs", INP, I+"formfactors.h: blatt_weisskopf_sqr, post_ff_sqr")
p("Partial and total widths of resonances", "A decay mode has no width below its threshold, a width that is not negative above, the width of the particle times the branching ratio at the pole mass, and (for stable daughters) a width that grows with the mass. The total width is the sum of the partial widths, is the width of the particle at the pole, and vanishes below the smallest threshold, where the spectral function vanishes as well. The branches offered for a decay are exactly the open modes of the wanted kind, and hadronic and dilepton widths add up to the total.", "all resonances, decay modes and masses", INP, S+"decaytype.cc: width", S+"particletype.cc: partial_width, total_width, get_partial_widths, min_mass_kinematic, spectral_function_no_norm")
p("Breit-Wigner functions are probability densities", "The relativistic Breit-Wigner function integrates to 1 over all positive masses, the Cauchy distribution and the non-relativistic Breit-Wigner function to 1 over all numbers; a mass drawn between two limits from a uniform random number u is the one below which the share u of the Cauchy distribution lies.", "all pole masses, widths, limits and random numbers", INP, S+"distributions.cc: breit_wigner, breit_wigner_nonrel, cauchy", I+"random.h: cauchy")
p("Masses of resonances in the final state", "The smallest mass used for a resonance is one at which its spectral function is not negligible, next to one at which it is. The masses drawn for a two-particle final state are the pole masses of stable particles and at least the smallest masses of resonances, together below the available energy; they follow the spectral functions times the phase space with form factor; the envelope is never lowered. With an energy below the threshold there is an exception.", "all spectral functions, energies, angular momenta and sequences of random numbers", HIST, S+"particletype.cc: min_mass_spectral, sample_resonance_mass, sample_resonance_masses", S+"action.cc: sample_masses", S+"decayaction.cc: sample_masses")
p("When particles decay", "An unstable particle decays in a time step with the probability 1 - exp(-dt Gamma m / (hbar E F)), where F is the configured lifetime factor, whatever the time steps were, so the decays follow the exponential law in the proper time; the time of the decay is inside the step and not before the formation of the particle. Stable particles, initial particles if their decays are switched off, and particles without open hadronic decays do not decay. At the end exactly the configured particles decay.", "all particles, widths, time steps and random numbers", HIST, S+"decayactionsfinder.cc: find_actions_in_cell, find_final_actions")
p("Initial state of a box", "The initial state of a box holds the configured number of every species times the number of test particles (or the thermal numbers drawn), all formed and at the starting time at places in the box, on their mass shells and with total momentum zero; a jet adds one particle with the configured momentum, in the middle of the box.", "all configurations, species, numbers and random numbers", INP, S+"boxmodus.cc BoxModus::initial_conditions")
p("Initial state of a sphere", "The initial state of a sphere holds the configured number of every species, all formed, at the starting time, uniformly distributed inside the sphere and on their mass shells; the total momentum is zero; with radial flow a particle at rest gets the velocity v0 (r/R)^n away from the centre; jets are added with opposite momenta at the configured distance.", "all configurations, numbers, flow profiles and random numbers", INP, S+"spheremodus.cc SphereModus::initial_conditions")
p("Sampling of thermal momenta", "Momenta drawn from a Boltzmann distribution have the density p^2 exp(-E/T), at every temperature and mass; those of the other distributions have their documented densities: every proposal is accepted with the density divided by an upper bound of it, and all momenta are non-negative and finite.", "all temperatures, masses and random numbers", INP, S+"distributions.cc sample_momenta_from_thermal sample_momenta_non_eq_mass sample_momenta_1M_IC sample_momenta_2M_IC sample_momenta_IC_ES")
p("Sampling of quantum momenta", "Momenta are drawn from the Bose distribution for particles of integer spin and from the Fermi distribution for particles of half-integer spin, the first momentum accepted with probability p^2 f(p)/max being returned; the maximum is the one of the distribution, so the accepted momenta have density p^2 f(p). Momenta are available for every species of the initial state.", "all species, temperatures, chemical potentials and random numbers", INP, S+"quantumsampling.cc QuantumSampling::sample QuantumSampling::p_max_root_equation", S+"distributions.cc juttner_distribution_func", S+"boxmodus.cc", S+"spheremodus.cc")
p("Skyrme and symmetry forces follow from their potentials", "The Skyrme potential is A u + B u^tau MeV with u the density over 0.168/fm3 and odd in the density; the forces on a nucleon are minus the gradient of its potential energy, for every density; the symmetry potential is a number for every density and its force belongs to it. A baryon feels a third of the force for each quark that is not strange, a nucleus that of all its quarks, and an antiparticle in the mirrored surroundings the same force as the particle.", "all densities, gradients, parameters and particle types", INP, S+"potentials.cc Potentials::skyrme_pot symmetry_pot symmetry_S force_scale skyrme_force symmetry_force dVsym_drhoI3 dVsym_drhoB")
p("The vector density functional field and its forces", "The field is the sum of C (rho/rho_sat)^(b-2) j/rho_sat; the forces computed from the derivatives of the current are -grad A0 - dA/dt and curl A of this field, the same as with directly computed derivatives of the field, and in the mirrored surroundings the field is opposite.", "all currents with derivatives, coefficients and powers", INP, S+"potentials.cc Potentials::vdf_pot vdf_force all_forces", S+"fields.cc update_fields_lattice")
p("The momentum dependent potential is the integral over the Fermi sphere", "The momentum dependent part of the potential is (2C/rho0) times the integral of 1/(1+(k-k')^2/Lambda^2) over the Fermi sphere filled up to the density with degeneracy 4, for moving particles and for particles at rest; it has the sign of C and is never stronger than 2 C rho/rho0.", "all momenta, densities and parameters", INP, I+"potentials.h Potentials::momentum_dependent_part")
p("Energy of a particle in momentum dependent potentials", "The energy in the calculation frame is the one whose transform to the local rest frame is sqrt(m^2+p^2) plus the potentials there. The search for it ends and fails only if no root is found within 100 GeV; the gradient is the central difference of energies at the neighbouring places. Antiparticles in antimatter are treated like particles in matter.", "all momenta, masses, currents, random numbers and results of the root finder", INP, I+"potentials.h Potentials::calculation_frame_energy single_particle_energy_gradient root_eq_potentials")
p("Momenta change by the forces", "In a time step the momentum of each baryon and nucleus changes by force times time step at fixed invariant mass and position, whatever the order of the particles; other particles are left alone. The forces are those of the lattices where these are available, those computed from the particles elsewhere if configured, and both are the same functions of the densities for every set of potentials.", "all particle lists, lattices, potentials and time steps", HIST, S+"propagation.cc update_momenta", I+"experiment.h Experiment::update_potentials")
p("Electromagnetic fields obey Coulomb's law", "The electric field of a charge points away from it and falls with the square of the distance, the magnetic field is perpendicular to current and distance, the fields of several charges add up, equal charges repel each other and the force between two charges is alpha hbar c z1 z2/r^2.", "all places, charge densities and currents", INP, I+"potentials.h Potentials::E_field_integrand B_field_integrand", I+"lattice.h RectangularLattice::integrate_volume", S+"propagation.cc update_momenta")
p("The root finder finds roots of its own equation", "A value found by the root finder lies in the given interval and is, to the configured relative precision, a root of the equation of this finder; nothing is found if the equation has the same sign at both ends; a root is found if there is one with a change of sign and enough iterations are allowed. Several finders do not disturb each other.", "all equations, intervals, iteration numbers, and all sequences of creations, searches and destructions", HIST, I+"rootsolver.h RootSolver1D")
p("Dynamic fluidization picks the right particles at the right time", "With dynamic initial conditions a particle becomes fluid in a time step exactly if it is not fluid yet, comes from an allowed process (never an initial nucleon, and not the first elastic collision if that is delayed), the chosen fraction of its formation time is over before the end of the step, and the energy density of the other particles around it plus the background reaches the threshold. It happens within the step, between the configured minimal and maximal time, and a forming particle never becomes fluid before that fraction.", "all particle lists, configurations, energy densities, backgrounds and time steps", INP, S+"dynamicfluidfinder.cc DynamicFluidizationFinder::find_actions_in_cell above_threshold is_process_fluidizable", S+"collidermodus.cc smearing_kernel_at_0")
p("Fluid particles stay fluid and hand it on", "A particle that became part of the fluid stays so, everything produced by it is part of the fluid, and nothing else is. Fluid and other particles meet only in elastic collisions, and such collisions do take place. Becoming fluid changes nothing else about a particle.", "all histories of scatterings, decays, multi-particle reactions and fluidizations", HIST, S+"fluidizationaction.cc FluidizationAction::generate_final_state check_conservation", I+"experiment.h Experiment::perform_action", S+"scatteraction.cc ScatterAction::generate_final_state", S+"decayaction.cc DecayAction::generate_final_state", S+"scatteractionmulti.cc ScatterActionMulti::generate_final_state")
p("The end of a run with dynamic initial conditions", "At the end the fluid particles are taken out and counted, and every other particle that collided is moved back along its straight line to its last collision with its momentum unchanged, spectators being left alone, whatever the order in the queue. This happens once; then the loop over the final interactions ends.", "all final particle lists and all orders of the queue", HIST, S+"dynamicfluidfinder.cc DynamicFluidizationFinder::find_final_actions", I+"freeforallaction.h FreeforallAction", I+"experiment.h Experiment::do_final_interactions")
p("Initial conditions for vHLLE", "The file has one line for the start and one for the end of every event and in between, in their order, one line for each particle that crossed the hypersurface and had interacted. Spectators are never written. All particles of a file have the same proper time; otherwise the program stops with an error.", "all sequences of events and crossings", HIST, S+"icoutput.cc ICOutput")
p("The energy density lattice covers the light cone", "With dynamic initial conditions the lattice of the energy density contains, at every time between the minimal and the maximal time, every point that light from the origin reaches by then.", "all sequences of time steps, minimal and maximal times", HIST, S+"collidermodus.cc ColliderModus::build_fluidization_lattice ColliderModus::ColliderModus")
p("Dileptons shine with the expected rate and once", "In every time step an unstable particle shines each of its dilepton modes with the weight dt Gamma_i m / (hbar E), times its cross section scaling factor, so its lifetime gives in the mean the branching ratio; at the end every remaining particle with dilepton modes shines with its branching ratio exactly once; stable, core and purely dileptonic particles do not shine during the evolution; nothing of this changes the event.", "all particles, masses, velocities, time steps, decay modes, random numbers, chains of final decays", HIST, (S+"decayactionsfinderdilepton.cc","DecayActionsFinderDilepton::shine, shine_final"), (I+"experiment.h","do_final_interactions"), (S+"decayaction.cc","DecayAction"))
p("Dalitz decays", "The three products of a Dalitz decay of a particle at rest have their masses and the sum of their four-momenta is that of the mother, whatever the order of the hadron and the leptons; the dilepton mass lies between the threshold and the mass difference and the mean of the weight over its uniform distribution is the width of the mode over the total width; other numbers of products and products without a hadron are refused.", "all masses, orders of the products, random numbers and directions", INP, (S+"decayactiondilepton.cc","DecayActionDilepton::sample_manybody_phasespace"), (I+"decayactiondilepton.h","get_total_weight"))
p("Photons from meson scatterings", "A pair of mesons emits a photon exactly if it is one of the documented pion-pion and pion-rho reactions, independent of the order, with conserved charge; a reaction said to be kinematically possible can be performed; hadron and photon are on their mass shells with the four-momentum of the incoming pair; the momentum transfer drawn is in its kinematic range and is that of the generated momenta.", "all pairs, momenta, masses and random numbers", INP, (S+"scatteractionphoton.cc","photon_reaction_type, outgoing_hadron_type, is_kinematically_possible, generate_final_state, sample_out_hadron_mass"))
p("Weights of photons", "The mean of the summed weights of the fractional photons of a collision, over the uniform momentum transfer, is the photon cross section (the integral of the differential one) over the hadronic one, times the scaling factors, for every number of fractional photons; a single photon has the ratio of the total cross sections; weights are never negative; each mediator has its own form factor, which is between zero and one.", "all numbers of photons, cross sections, ranges and mediators", INP, (S+"scatteractionphoton.cc","generate_final_state, total_cross_section_w_ff, diff_cross_section_w_ff, form_factor"), (S+"crosssectionsphoton.cc","cut_off"))
p("Bremsstrahlung kinematics", "Two pions emit a bremsstrahlung photon for every combination of charges, independent of their order, with conserved charge; pions and photon are on their mass shells with conserved energy and momentum; the photon has the energy drawn, which is between 1 MeV and the largest energy kinematically possible.", "all pairs, energies, masses and random numbers", INP, (S+"bremsstrahlungaction.cc","bremsstrahlung_reaction_type, sample_3body_phasespace, create_collision_branch, brems_cross_sections"))
p("Weights of bremsstrahlung", "The mean of the summed weights of the fractional photons of a collision is the bremsstrahlung cross section over the hadronic one, times the scaling factors; with two possible final states it is the sum of their cross sections.", "all differential cross sections, numbers of photons and tables", INP, (S+"bremsstrahlungaction.cc","generate_final_state, brems_diff_cross_sections, brems_cross_sections"))
p("Parametrized cross sections are positive", "Every cross section given by a formula is positive at every energy above the threshold of the collision: elastic, total and annihilation cross sections of nucleons and antinucleons, pions, kaons, hyperons and deuterons, and those for high energies; those for hard strings are zero below their threshold and never decrease.", "all energies above the threshold, all tabulated data that are subtracted", INP, (S+"parametrizations.cc","pp_elastic, pp_total, np_elastic, np_total, ppbar_elastic, ppbar_total, xs_high_energy, xs_string_hard, piplusp_elastic, kplusp_elastic_background, kminusp_kbar0n, kminusn_piminussigma0, lambdalambda_ximinusp"))
p("Relations between cross sections", "The elastic cross section of two particles never exceeds their total cross section, at high energies the cross sections do not depend on the charges of the nucleons, and those of particle-particle and particle-antiparticle collisions become equal. The cross sections of kaons and nucleons with analytic parametrizations are related by isospin symmetry.", "all energies above the threshold", INP, (S+"parametrizations.cc","pp_elastic, pp_total, np_elastic, np_total, ppbar_elastic, ppbar_total, xs_high_energy"))
p("Smoothing of tabulated cross sections", "For data with increasing abscissae the smoother ends, reads only the data and returns their robust locally weighted regression: each value is that of the best weighted line (or weighted mean, if the points are clustered) through its nearest neighbours with tricube weights, repeated with bisquare weights of the residuals relative to six times their median. The specification determines the values. Changes of unit or zero of the ordinates commute with smoothing; constant data are returned unchanged; so are data on a line; so are all data if the span covers less than three points. Smoothed positive data stay positive.", "all data sets, spans, numbers of iterations, factors and shifts", INP, "src/include/smash/lowess.h: smooth, lowess, lowest", "src/parametrizations.cc")
p("Partial sort of the smoother", "The partial sort puts the element of the requested rank in its place, with none larger before it and none smaller after it, rearranges the array, ends and stays in its bounds; the robustness scale computed with it is six times the median of the residuals.", "all arrays and ranks", INP, "src/include/smash/lowess.h: psort, lowess")
p("The event record in the HepMC format is the history of the event", "For every event and every history of its interactions, the record with full history contains, with the status of final particles, exactly the particles present at the end, each once, with its code and its last reported momentum. The k-th interaction is the k-th vertex: the entries entering it are those of its incoming particles at that time, with the status of the process, and the entries leaving it are its outgoing particles; so whenever the interaction conserves momentum, the record does so at that vertex. In the collider modus exactly two beam entries enter the interaction point, they carry the momenta of the two nuclei and standard ion codes, and the initial nucleons leave it. Without history the record consists of the initial state and the final particles. Several ensembles, beams of other particles than nucleons and final particles which were never reported are refused.", "all events, numbers and orders of interactions, and particle lists", HIST, S+"hepmcinterface.cc: HepMcInterface::at_eventstart, at_interaction, at_eventend, make_register, find_or_make, ion_pdg, get_status", I+"hepmcinterface.h: HepMcInterface")
p("The tabulated equation of state stores, reproduces and interpolates the solution", "For every number of nodes and every equation of state, each node of the compiled table contains pressure, temperature and chemical potentials which the solver finds for the densities of that node (zero where no solution can exist), computed only from nodes compiled before it; queries at nodes give the stored values, queries between nodes are bounded by the surrounding nodes and exact for affine functions, and queries beyond the last node give -1. A table written to a file and read again is the same up to the rounding of the file. A table from a file is used if and only if it agrees with the equation of state at the nodes which are looked at, otherwise it is compiled again. No query or file leads to an undefined access.", "all table sizes, steps, densities, equations of state and file contents", INP, S+"hadgas_eos.cc: EosTable::compile_table, EosTable::get", I+"hadgas_eos.h: EosTable::index", I+"interpolation.h: interpolate_trilinear")
p("The hadron gas is an ideal Boltzmann gas with consistent sums, symmetries and solutions", "For all particle lists, temperatures and chemical potentials: the density is the sum of the partial densities, the net densities are the sums weighted with baryon number, strangeness and charge, and the pressure is temperature times density; the partial densities and the energy density are those of a Boltzmann gas, so that the energy density is at least three times the pressure; each net density grows with its chemical potential; opposite potentials give opposite net densities when the list contains the antiparticles. The potential for vanishing strangeness is found whenever it exists and then the net strangeness is below the tolerance; the solution for given densities either satisfies them within the tolerance or there is a warning.", "all particle lists, temperatures, chemical potentials, densities and behaviours of the numerical solver", INP, S+"hadgas_eos.cc: HadronGasEos::partial_density, energy_density, density, net_baryon_density, net_strange_density, net_charge_density, mus_net_strangeness0, solve_eos_initial_approximation, solve_eos", I+"hadgas_eos.h: HadronGasEos::pressure")
p("Thermodynamic lattice files of an event can be read back as documented", "For every set of requested quantities, every lattice and every sequence of outputs during an event (with fewer than ten million events): the event leaves exactly one new file per quantity, whose name tells quantity, density type, event and format; the file has the documented header and then, for every output in order, the time and every value of every node at the documented position, in the binary format as well as in the text format; outputs of one quantity never end up in the file of another one, files of other events are untouched, and at the end of the event all files are closed so that the next event starts in the same way.", "all sets of quantities, lattice sizes, values, numbers and orders of outputs, and events", HIST, S+"thermodynamiclatticeoutput.cc: ThermodynamicLatticeOutput (constructor, at_eventstart, at_eventend, thermodynamics_lattice_output, make_filename, write_therm_lattice_ascii_header, write_therm_lattice_binary_header, to_int)", I+"outputinterface.h: to_string", I+"lattice.h: iterate_sublattice", I+"experiment.h: initialize_new_event")
p("VTK files contain the documented data sets and no output overwrites another one", "For every list of particles and every lattice, each file of the VTK output is a legal legacy VTK file (points, cells, attributes or structured points with the right numbers of values), and a reader of the format gets back every quantity of every particle and every node: positions, momenta, masses, charges, tensor components, velocities, fields. Over a run with any number of events, ensembles and outputs each output goes to a file of its own whose name tells the quantity, the event, the ensemble and the number of the output, and each file contains the data of its own output.", "all lists of particles, lattices, and histories of events, ensembles and outputs", HIST, S+"vtkoutput.cc VtkOutput::write", S+"vtkoutput.cc VtkOutput::at_eventstart", S+"vtkoutput.cc VtkOutput::at_intermediate_time", S+"vtkoutput.cc VtkOutput::make_filename", S+"vtkoutput.cc VtkOutput::thermodynamics_output", S+"vtkoutput.cc VtkOutput::fields_output", I+"vtkoutput.h VtkOutput")
p("ROOT trees contain every output of particles and every interaction under the documented names", "For every run with any number of events, ensembles and outputs: the tree of the particles has, in the order of the outputs, one entry per output (as long as the particles fit into the buffer) with event, ensemble, number of the output, properties of the event and all properties of all particles, in the standard and in the extended form; only-final options leave exactly the final outputs, and empty events are left out if this is wanted; interactions never disturb the tree of the particles. The tree of the collisions has one entry per interaction with incoming particles, then outgoing ones, and the weights. Everything written so far is saved regularly.", "all lists of particles, options, numbers of events, ensembles and outputs, and positions of interactions in the history", HIST, S+"rootoutput.cc RootOutput::at_eventstart", S+"rootoutput.cc RootOutput::at_intermediate_time", S+"rootoutput.cc RootOutput::at_eventend", S+"rootoutput.cc RootOutput::at_interaction", S+"rootoutput.cc RootOutput::particles_to_tree", S+"rootoutput.cc RootOutput::collisions_to_tree", S+"rootoutput.cc RootOutput::init_trees")
p("Options with named values accept exactly the documented words and survive being stored", "For every option of the input file whose value stands for a choice, a text is accepted exactly if it is one of the documented words, and then has the documented meaning; every other text is an error whose message offers the words that work. A list of processes or of thermodynamic quantities means the set of its members, whatever their order and repetitions, \"All\" means every process, and an unknown word is an error. A value stored in the configuration is read back unchanged.", "all options with named values, all texts, all lists of texts, all values and sets of values", INP, I+"configuration.h: Configuration::Value::operator ReactionsBitSet ... operator FluidizableProcessesBitSet", S+"stringify.cc: to_string", I+"logging.h: YAML::convert<einhard::LogLevel>", "3rdparty/einhard/einhard.cpp: getLogLevel, getLogLevelString")
p("thermodynamics.dat has the documented columns and every number is the right sum over particles", "For every choice of quantities, density type, point, smearing and participants, and for every state of any number of ensembles: the header names the columns, each line has exactly these columns in the documented order, and each number is the sum over all particles of all ensembles which it stands for: the length of the current, the energy-momentum tensor, the tensor in the Landau frame (without momentum flow), the velocity of that frame, and the currents of charge, baryon number and strangeness. Over a run the file is the header followed by one line per event and one line per output. An output never fails, and the Eckart density does not depend on the smearing option.", "all options, all lists of ensembles of particles, all results of the eigenvalue solver, all sequences of events and outputs", HIST, S+"thermodynamicoutput.cc: ThermodynamicOutput::ThermodynamicOutput, at_eventstart, at_intermediate_time", S+"density.cc: current_eckart", I+"fourvector.h: FourVector::abs", I+"outputinterface.h: OutputInterface::to_string")
p("Options of the input file reach every component that uses them",
 "The value the input file gives to Collision_Term: Spin_Interactions decides, for every modus, whether scatterings, decays and the initial particles carry spin; the value of Output: Thermodynamics: Only_Participants decides which particles are counted in the densities and whether the header of thermodynamics.dat says so. Without a value in the file the documented default is used.",
 "every input file, every sequence of other keys taken before, every modus", INP,
 S+"experiment.cc: create_experiment_parameters", I+"experiment.h: Experiment::Experiment", S+"spheremodus.cc: SphereModus::SphereModus, initial_conditions", S+"nucleus.cc: Nucleus::Nucleus", S+"collidermodus.cc: ColliderModus::ColliderModus", S+"boxmodus.cc: BoxModus::initial_conditions", I+"outputparameters.h: OutputParameters", S+"thermodynamicoutput.cc: ThermodynamicOutput::ThermodynamicOutput", S+"configuration.cc: extract_complete_sub_configuration")
p("A legal output section gives every requested output once, in its own documented file",
 "For every section Output: the run is accepted exactly if the formats of every content are legal (not empty, None only alone, Quantities given exactly if ASCII or Binary is requested, no two files with the same contents, every format existing for the content in this build and allowed with the given ensembles and initial conditions, at most one YODA format); then there is exactly one output for every pair of content and format that was requested, in the requested order if no format is repeated, each writing to the file documented for it, and no two outputs write to the same file.",
 "every list of contents with every list of format strings, every build configuration, every choice of Extended and Quantities, any number of ensembles", INP,
 I+"experiment.h: Experiment::create_output, Experiment::Experiment", S+"oscaroutput.cc: create_oscar_output, create_selected_format", S+"binaryoutput.cc: get_binary_filename, get_list_of_binary_quantities, create_binary_output", I+"outputparameters.h: OutputDefaultQuantities", I+"input_keys.h: get_output_format_key")
p("The lattice is the one given or one that fits the simulated system",
"For every modus, end time, smearing and combination of given properties of the lattice: with Automatic: False the run is accepted exactly if sizes, cell numbers and origin are all given and legal, and the lattice is the given one; with Automatic: True given properties replace the defaults, and giving all of them or the modus List is refused. The default lattice covers everything that can be reached: for the collider all particles that start in the (contracted) nuclei and are not faster than 0.7 in the transverse directions, for the sphere all particles, for the box exactly the box, until the end time, with as few cells as possible of the documented width, centred at the origin, and periodic exactly for boxes unless the user decides otherwise; it can be made for every energy.",
"every modus, energy, radius, box length, end time, smearing and subset of given properties, exact numbers in any ordered field",
INP, S+"include/smash/experiment.h: Experiment constructor (Lattice)", I+"lattice.h: RectangularLattice constructor")
p("Values printed from lattices belong to the particles at the time of the output",
"For every combination of potentials and requested thermodynamic quantities, and after every history of events, steps, motions and outputs: an output prints exactly the quantities asked for, no null pointer is used, and every printed value is computed from the particles present at that moment; the time derivatives used for the forces are taken between two successive steps of the same event.",
"every configuration of potentials and printed quantities, every history of any number of events, steps and outputs, every contents of the ensembles",
HIST, I+"experiment.h: Experiment constructor, initialize_new_event, intermediate_output, update_potentials", S+"density.cc: update_lattice", I+"density.h: update_lattice_accumulating_ensembles")
p("Particles handed over by another program are added and removed as asked",
"For every call that continues the evolution with lists of particles to add and to remove, and every state of the particles: each given particle (a hadron of the list of types, with a momentum that is not space-like and without NaN) is added, with the corrected energy, at the present time on the straight line through its given position, with a new id, and does not interact before its own time; for each particle to remove exactly the particle that it describes is removed; particles that are not found are ignored, and a particle cannot be removed twice. Nothing else changes, adding and removing the same particles leaves no trace, and a call that ends with an exception leaves the particles as they were.",
"every list of given particles, every ensemble, order of the container, times, Pauli blocking, core particles",
HIST, I+"experiment.h: Experiment::run_time_evolution, perform_action", S+"experiment.cc: validate_and_adjust_particle_list", S+"particledata.cc: create_valid_smash_particle_matching_provided_quantities, are_particles_identical_at_given_time", I+"freeforallaction.h: FreeforallAction")
p("The command line decides what is done",
  "The first of -h, -v and an unknown option ends the program at once, without touching a file; left-over arguments do the same. Otherwise every option with a value has the value of its last use, all -c texts count in their order, and every switch is on exactly if it was given. The program does what the first of -l, -x, -r, -s/-S asks for, else a simulation in the chosen directory, or it reports an error with exit code 1. -s and -S need two, four or more pieces; a stable particle always has its pole mass. -m and -e have the effect of a last -c text for the same key.",
  "all sequences of options, settings, inputs, file systems and behaviours of the experiment", INP,
  S+"smash.cc: main, usage", S+"stringfunctions.cc: split")
p("The output directory is respected",
  "Without -o the results go to data/<id> with the smallest free number. A simulation without -f in a directory with the results of another one, or with the lock of a running one, ends with an error and leaves every file as it was; without -f the directory must be empty. Every started simulation removes its lock, however it ends, and leaves a config.yaml with exactly the simulated configuration. If the input is missing or invalid nothing is created. The tabulations are stored next to the output directory, or nowhere with -n.",
  "all file systems, settings, inputs and behaviours of the experiment, including failures at any stage", HIST,
  S+"smash.cc: default_output_path, ensure_path_is_valid, main", S+"filelock.cc: FileLock", S+"library.cc: tabulate_resonance_integrals")
p("A run can be reproduced from its copied configuration",
  "The simulated configuration has the keys of the input file with all -c texts merged in, later texts winning; the mode is that of -m, the end time that of -e, a negative seed is replaced by a new non-negative one, and the particle and decay tables are those of the given files, else those of the configuration, else the compiled-in ones. Files with CR LF are refused. A second run that is given the copied config.yaml simulates exactly the same configuration, whatever has become of the input file and the compiled-in tables.",
  "all input texts, -c texts, options and tables; all later installations", INP,
  S+"library.cc: setup_config_and_logging, create_configuration, setup_logging, read_particles_and_decaymodes_files_setting_keys_in_configuration", S+"setup_particles_decaymodes.cc: load_particles_and_decaymodes", S+"smash.cc: main", I+"inputfunctions.h: has_crlf_line_ending")
p("Deformed nuclei",
  "A nucleus with deformation parameters has the documented Woods-Saxon density whose radius is R0(1 + beta2(cos(gamma) Y20 + sqrt2 sin(gamma) Y22) + beta3 Y30 + beta4 Y40) with the normalised real spherical harmonics. The section of a nucleus is accepted exactly if the documented combinations of keys are given, the parameters in use are the given or tabulated ones, and the density adds up to the number of nucleons. Nucleons are placed with a probability proportional to that density, within a range that does not cut the nucleus. The given or random Euler angles rotate the nucleus. Fermi momenta are drawn for the density at the place of each nucleon.",
  "all sections of nuclei, deformation parameters, angles, positions and random numbers", INP,
  S+"deformednucleus.cc (y_l_m, nucleon_density, distribute_nucleon, set_deformation_parameters_automatic, calculate_saturation_density)", S+"nucleus.cc (Nucleus, set_parameters_automatic, rotate, random_euler_angles, generate_fermi_momenta)", S+"collidermodus.cc (create_deformed_nucleus)")
p("Chemical potentials of quantum gases",
  "The density used for a species is the momentum integral of its Fermi, Bose or Boltzmann distribution, which is positive and strictly rising with the chemical potential, so that fermions have exactly one chemical potential for each density and bosons exactly one up to the critical density. The search returns the chemical potential whose density is that of the particles in the volume, within the precision asked for, or reports an error: when the root finder is stuck, when the density is not reproduced, and for a condensate. The momentum of the maximum of the distribution is found as well, and momenta are drawn with it.",
  "all species, densities, temperatures and runs of the root finder", INP,
  S+"chemicalpotential.cc (density_one_species, find_effective_chemical_potential, effective_chemical_potential)", S+"quantumsampling.cc (QuantumSampling, find_p_at_maximum_of_the_distribution, maximum_of_the_distribution, sample)")
p("The rest frame of a lattice cell is the ideal fluid decomposition of its energy and momentum density",
"For every lattice cell of the forced thermalisation filled with massive particles of positive weight, the velocity found for the rest frame is below the speed of light and the energy density is positive and not above the one in the computational frame, whether or not the iteration converges. If it converges in a cell that is not empty, the energy density, pressure and velocity are exactly those of an ideal fluid with the energy and momentum density of the cell, and temperature, chemical potentials and pressure are those of matter with this energy density (up to 5e-4 GeV/fm^3) and with the conserved densities of the cell transformed to the rest frame. If the pressure depends on the energy density with at most the speed of sound of massless particles, the iteration converges within its 50 passes and the energy density is within 2.5e-4 GeV/fm^3 of the unique solution. Skipping cells below the threshold does not change which cells are above the critical energy density.",
"all lists of particles and weights in a cell, all equations of state with pressures that are not negative, all tables", INP,
S+"grandcan_thermalizer.cc: ThermLatticeNode::add_particle, compute_rest_frame_quantities, GrandCanThermalizer::update_thermalizer_lattice", I+"grandcan_thermalizer.h: ThermLatticeNode")
p("Forced thermalisation replaces exactly the particles of the dense cells by particles in these cells that follow their flow",
"A forced thermalisation removes all particles whose cell has more than the critical energy density if these are more than 30, and none otherwise; new particles are put only into these cells, each chosen with a probability proportional to the mean number of particles of the moving matter in it, lie in the chosen cell, are on their mass shell and have in the rest frame of the cell the sampled momentum.",
"all lattices, periodic or not, all particle lists, all energy densities and velocities below the speed of light of the cells, all random numbers", INP,
S+"grandcan_thermalizer.cc: GrandCanThermalizer::thermalize, sample_in_random_cell_BF_algo, thermalize_BF_algo, uniform_in_cell", I+"grandcan_thermalizer.h: compute_N_in_cells_mode_algo, sample_in_random_cell_mode_algo")
p("Thermal masses of resonances","The mass drawn for a hadron of a thermal gas is the pole mass for a stable hadron. For a resonance it lies between the smallest mass allowed by its decays and 5 GeV, and the masses returned follow the thermal distribution: the probability of a mass of at most x is the integral of spectral function times m² K2(m/T) up to x divided by the integral over all masses.","all resonances, spectral functions, temperatures and random numbers",INP,S+"hadgas_eos.cc: HadronGasEos::sample_mass_thermal")
p("The leading baryon of a string conserves everything, and the string that is left can be handed on",
"If the leading baryon of a baryonic string is fragmented with its own function: the hadrons emitted before PYTHIA and the remaining string have together exactly the mass of the string as energy, no momentum, and the flavour of the ends of the string; each hadron is on the shell of the mass selected for it; the separate function is used for the leading baryon and acts on no other hadron; the remaining string has enough mass for its ends, and its two ends share its light-cone momenta, are on their mass shells and lie in the right order; if only two hadrons can be made, they use up the string.",
"all strings, quark flavours, settings of PYTHIA, choices of flavours, species and masses, random numbers, numbers of attempts and sequences of ends that fragment", INP,
S+"stringprocess.cc: StringProcess::fragment_off_hadron, fragment_string, make_lightcone_final_two, sample_zLund", I+"stringprocess.h: StringProcess")
p("The transverse momentum of the ends of a string is passed on to its outermost hadrons",
"When PYTHIA has fragmented the string that remains after the leading baryon, the transverse momenta of its ends are added to the most forward and the most backward hadron and to no other one; every hadron keeps its mass; together the hadrons have the ratio of light-cone momenta of the string exactly, and its transverse momentum and mass within the tolerances of the code; otherwise the fragmentation is refused; if there is nothing to add the hadrons are left alone.",
"all directions of the string, light-cone and transverse momenta, numbers of hadrons and their momenta from PYTHIA", INP,
S+"stringprocess.cc: StringProcess::remake_kinematics_fragments", I+"stringprocess.h: StringProcess::shift_rapidity_event")
p("Annihilation of a baryon and an antibaryon into strings conserves the flavours and shares the energy",
  "The annihilation process of the string model accepts exactly a baryon and an antibaryon, in either order, and reports anything else as an error. If the two have no flavour that can annihilate they remain as they are. Otherwise one flavour is drawn with a weight equal to the number of quark-antiquark pairs of it, one such pair disappears, and two strings are made: each has a quark and an antiquark at its ends and half of the energy, which is enough for the masses of the ends, and the four ends together have the net number of every flavour of the incoming pair. The process is refused only if half of the energy is less than the masses of some quark and antiquark.",
  "all pairs of baryon and antibaryon codes made of the five flavours, all energies, all constituent masses, every random choice", INP, S+"stringprocess.cc: StringProcess::next_BBbarAnn")
p("A run is ended at the first time step after which energy, momentum and quantum numbers are not those of the beginning",
  "The conserved quantities of a run are the sums over the particles of all ensembles and do not depend on their order or distribution. The report of two sets of quantum numbers is empty exactly if the integers are equal and the components of the momentum agree within the tolerance; it has a line for every quantity that differs, for no other, and the printed relative deviation is finite. Without potentials, strings, expansion and production of initial conditions the run ends with an error after a time step exactly if it is the first one after which the particles deviate from the beginning of the event; with any of these nothing is checked.",
  "all particles with finite momenta, all codes, all numbers of ensembles, all histories of time steps; lines of the report also for momenta that are not finite", HIST, S+"quantumnumbers.cc: QuantumNumbers::report_deviations", I+"quantumnumbers.h: QuantumNumbers", I+"experiment.h: Experiment::run_time_evolution")
p("Tables in two variables are interpolated inside their range and continued constantly; the differential cross sections of bremsstrahlung are never negative",
  "A table in two variables is accepted exactly if it has the right number of values over increasing abscissas, at least four of each. Its interpolation is defined for every point: inside of the table it is that of the spline, which at the points of the table is the value of the table, and outside it is the value at the nearest edge, so that the spline is never evaluated outside of its range. For every pair of pions and every photon energy, angle and collision energy the differential cross sections of bremsstrahlung come from the tables of the process, are never negative, and the weight of the photon is a root of a number that is not negative.",
  "all tables, all points, all pairs of pions and outgoing pions, all photon energies, angles and collision energies, every spline", INP, S+"interpolation2D.cc: InterpolateData2DSpline", S+"bremsstrahlungaction.cc: BremsstrahlungAction::brems_diff_cross_sections")
p("A numerical integral is returned with the required precision, or not at all",
  "If the numerical integration over an interval or a rectangle returns a value, it differs from the integral by at most the absolute precision or by at most the relative precision times its absolute value, provided the underlying algorithm does not underestimate its error. A value whose estimated error meets one of the two precisions is returned. An error code of the algorithm is never ignored. Limits of a rectangle in the wrong order are an error unless the difference is one of rounding, when the result is zero.",
  "all integrands, all limits, all precisions, every algorithm with an honest estimate of its error", INP, I+"integrate.h: Integrator", I+"integrate.h: Integrator2d", I+"integrate.h: Result::check_error")
p("The strings of a hard scattering hold every parton once and are colour neutral","The partons that PYTHIA produces in a hard scattering are divided into strings: every parton and every junction goes into exactly one string, and the momentum recorded for a string is the sum of the momenta of its partons. Without junctions each string is colour neutral, starts in turn at the most forward and most backward parton that is left, and for events without a parton of a colour and the same anticolour the division succeeds exactly if the event is colour neutral. With one junction left its string is neutral together with the junction, and it is found if the partons are neutral with the junction. With several junctions, if the event is neutral together with its junctions and no two junctions of the same kind share a colour, the division ends without error and every string is neutral together with its junctions. For any event the division ends, with strings or with an error.","all lists of partons with any colours and momenta, all junctions, all rapidities",INP,S+"stringprocess.cc: StringProcess::compose_string_parton, compose_string_junction, find_junction_leg, next_NDiffHard",I+"stringprocess.h: StringProcess::get_index_forward")
p("After flavours are changed in a hard scattering the partons are scaled back to the collision energy","When the flavours of the partons of a hard scattering are replaced by those of the incoming hadrons, their momenta are scaled until the total energy is the initial one: the momenta of all partons are multiplied by one common number, masses are kept, partons stay on their mass shell, a vanishing total momentum stays zero, and the energy agrees up to a relative 1e-6. The scaling ends, for partons on the mass shell of which one moves, if the sum of the masses is below the energy; heavier partons are refused.","all lists of partons with any masses and momenta, all initial energies",INP,S+"stringprocess.cc: StringProcess::restore_constituent")
p("Splitting gluons of a hard scattering keeps momentum, colours and net quark numbers","When quarks or antiquarks of some flavour are missing, gluons of a hard scattering are split into quark-antiquark pairs of that flavour. Whatever the outcome, the total momentum, the number of times each colour and anticolour occurs and the net number of quarks of each flavour are kept, new partons are on their mass shell, and the numbers of quarks given back are those of the event; if the splitting succeeds there are enough quarks or antiquarks of every flavour. It fails only if there is no gluon, and the energy changed by the splitting is restored afterwards.","all lists of partons, all excesses of flavours, all transverse momenta drawn",INP,S+"stringprocess.cc: StringProcess::splitting_gluon_qqbar, find_total_number_constituent, restore_constituent")
p("The particle list for iSS holds every hadron once, ordered by mass, with its decays","The option that dumps the particles in the format of iSS prints every particle type that is no lepton and no antibaryon exactly once, ordered by mass, with its data, followed by exactly as many decay lines as it announces; the weights are those of the decay modes, a stable particle decays to itself with weight one, and each decay line names the number of products and all products.","all lists of particle types with any decay modes",INP,S+"smash.cc: main")
p("Collisions that excite strings have a complete final state", "A collision selected as a string process ends with the particles of the first attempt of this process that succeeds; if none of 10000 attempts succeeds, with those of the first successful attempt of annihilation (baryon and antibaryon) or double diffraction (otherwise), and the collision has the type of that process; if this fails 10000 times, the incoming particles scatter elastically and the collision is marked as a failed string. Particles of unsuccessful attempts never appear. Diffractive and soft non-diffractive attempts succeed exactly if the strings are heavy enough and fragment; all fragments of both strings (of the string and the unexcited hadron) are in the final state and together have the energy and momentum of the incoming particles, and the direction of a string is a unit vector.", "all outcomes of attempts, incoming particles with mass, momentum fractions, transverse momenta, string masses, and fragmentations that conserve energy and momentum", INP, S+"scatteraction.cc ScatterAction::string_excitation", S+"stringprocess.cc StringProcess::next_SDiff", S+"stringprocess.cc StringProcess::next_DDiff", S+"stringprocess.cc StringProcess::next_NDiffSoft", S+"stringprocess.cc StringProcess::set_mass_and_direction_2strings", S+"stringprocess.cc StringProcess::make_final_state_2strings")
p("Guards switch floating-point traps off in their scope and restore them",
  "At the start SMASH makes poles, domain errors and overflows (and no other floating-point exception) abort the program, or warns about each of the three where traps are not supported. In the scope of a guard without mask no floating-point operation aborts the program, whatever trapped before, also if another guard is placed inside; in the scope of a guard with a mask exactly those exceptions abort that are in the mask and that trapped before. When the scope is left, normally or by a C++ exception, the floating-point environment is exactly what it was before, for any nesting of guards.",
  "all programs built from operations that raise exceptions, C++ exceptions and their handlers, and guards nested in any way; all masks, environments and supported platforms",
  "Tests raise single exceptions in single guards; the claim is about every nesting of guards with every control flow, and about every state of the control registers.",
  I+"fpenvironment.h:DisableFloatTraps", I+"fpenvironment.h:without_float_traps", S+"fpenvironment.cc:enable_float_traps", S+"fpenvironment.cc:setup_default_float_traps")
p("Each log area prints what was asked for",
  "After the set-up of logging each log area has the verbosity given for it in the configuration, or the one given as default if there is none for the area, or ALL if neither is given; its name is printed centred in as many columns as the longest name has. The set-up fails exactly if a given text is not the name of a level, and uses every key of the section that SMASH knows. A message is printed exactly if its level is at least the verbosity of its area and, in release builds, it is no debug or trace message; nothing is printed if the verbosity is OFF. A level written to a configuration by SMASH is read back as the same level.",
  "all contents of the logging section of the configuration, all areas and levels; for the width, any number of areas",
  "There are 9^34 combinations of levels for the areas; tests use one or two. The compile-time search for the longest name is a recursion for which tests can only check the current names.",
  S+"logging.cc:create_all_loggers", S+"logging.cc:find_longest_logger_name", S+"library.cc:setup_logging", I+"logging.h:convert<einhard::LogLevel>", "3rdparty/einhard/einhard.cpp:getLogLevel", "3rdparty/einhard/einhard.hpp:isEnabled")
p("Scattering angles of two-body collisions",
"The angle of a 2 -> 2 collision follows the documented law: elastic collisions and the production of a resonance by two nucleons have an exponential or power law in the momentum transfer with the documented slope, mirrored with the documented weight (half except for elastic proton-neutron collisions above 0.8 GeV), everything else and everything on request is isotropic. The cosine is between -1 and 1, the momentum transfer of the final state is the one that was drawn, and the final state has the requested masses and the four-momentum of the collision. For elastic collisions of other particles the lab momentum is that of two nucleons with the same centre-of-mass momentum.",
"all energies, masses, particle pairs, momenta of the incoming particles and random numbers", INP,
S+"scatteraction.cc: sample_angles, Cugnon_bpp, Cugnon_bnp, high_energy_bpp", I+"kinematics.h: get_t_range, plab_from_s")
p("Counter of processor cycles",
"The counter gives the number of cycles between start and stop, also if the counter of the processor wraps around, and the printed text shows this number in groups of three digits.",
"all values of the counter and all numbers of cycles below 2^64", INP,
S+"tsc.cc: operator<<", I+"tsc.h: TimeStampCounter")
p("Spin vectors in scatterings and decays",
"With spin interactions switched on, every outgoing particle of a scattering has a spin vector: elastically scattered particles and the surviving hadron of single diffraction keep the squared length of theirs, all others get a fresh one (zero without mass or spin). The polarisation of a Lambda is carried through a Sigma* formed with a pion, with a flip in two of nine cases. The Lambda of a Sigma* decay inherits the spin of the Sigma*, other decay products get fresh ones. Spin vectors stay orthogonal to the momentum. Without spin interactions nothing is changed.",
"all processes, incoming and outgoing particles, momenta, spin vectors and random numbers", INP,
S+"scatteraction.cc: generate_final_state, spin_interaction, string_spin_interaction, resonance_formation", S+"particledata.cc: set_unpolarized_spin_vector", S+"decayaction.cc: generate_final_state")
p("Events in HepMC files and for Rivet",
"At every crash point the final name of a HepMC file is as it was before the run and the unfinished file has the events so far; after a complete run the final file has all events in their order and the unfinished one is gone. Rivet is set up first (paths and preloaded files before analyses, weights only if configured), initialised once with the first event, sees every event once in order, and its results are finalised and written at the end.",
"all runs, numbers of events, crash points, file names, prior contents of the directory and Rivet settings", HIST,
S+"hepmcoutput.cc: HepMcOutput", S+"rivetoutput.cc: RivetOutput", I+"outputparameters.h: RivetOutputParameters")
p("Final state and momentum of hard string processes",
  "A hard string process succeeds exactly if there is a string, all strings fragment and all their particles are known; the final state are then the hadrons of all strings followed by the known particles that are not hadrons, after a failure it is empty. If fragmentation conserves momentum so does the process, except that a non-parton of the hard event unknown to the program is lost without starting over.",
  "all event records, all results of the fragmentation of all strings, all sets of known particles", INP, S+"stringprocess.cc:next_NDiffHard", I+"stringprocess.h:append_intermediate_list")
p("The books of an event balance and its final checks are sound",
  "After any history of actions, particles plus energy removed at the hypersurface make up the initial energy plus the violations by string fragmentation, so that a run for initial conditions that removes all particles never stops with the exception that energy remains; every action is counted once, counters reported never wrap around, and the warnings about discarded interactions and unformed particles are given exactly when they apply.",
  "all initial particles, all sequences of actions of all kinds, all settings", HIST, I+"experiment.h:perform_action", I+"experiment.h:final_output", S+"action.cc:check_conservation")
p("Spectra of lepton pairs from Dalitz decays are well-defined and non-negative",
  "For every mother with a Dalitz decay, every pair at least as heavy as two leptons and every open channel the differential width is a number, not negative, given by the published formula, and vanishes at the end of the spectrum; closed channels have width zero; no assertion fails. The function itself does not check for pairs lighter than two leptons.",
  "all masses of mother, pair, lepton and third particle, all partial widths and form factors", INP, S+"decaytype.cc:ThreeBodyDecayDilepton::diff_width")
with open("/verif/properties.jsonl","w") as f:
    for x in P: f.write(json.dumps(x,ensure_ascii=False)+"\n")
print(len(P))
