{"id": "C01", "title": "option_context always restores options", "statement": "Leaving a `with pypsa.option_context(...)` block, whether normally, through an exception in the block, or because one of the given names turned out to be invalid, gives every option named in its arguments the value it had before the block, whatever the block did to options through set_option, reset_all or nested contexts; when a given name is invalid no option at all changes.", "quantifier": "all option trees, all argument lists, all programs run in the block, all exit points", "why_tests_cant": "The block is an arbitrary program and contexts nest arbitrarily; tests only try a few argument lists.", "anchors": ["pypsa/_options.py:option_context"]}
{"id": "C02", "title": "Option get/set/reset behave like a map with defaults", "statement": "After set_option(k, v) a get_option(k) returns v and every other option is unchanged; getting or setting an unknown name or a category raises and changes nothing; reset_all gives every option its registered default, for any history of calls.", "quantifier": "all sequences of add/get/set/reset calls over all dotted names", "why_tests_cant": "Requires all histories over an unbounded name tree.", "anchors": ["pypsa/_options.py:OptionsNode.get_option", "pypsa/_options.py:OptionsNode.set_option", "pypsa/_options.py:OptionsNode.reset_all", "pypsa/_options.py:OptionsNode._add_option"]}
{"id": "C03", "title": "Component names stay unique", "statement": "Starting from an empty network, after any sequence of add, remove, set_snapshots and set_investment_periods calls (including calls that raise), no component table contains the same name twice.", "quantifier": "all operation histories, all component classes", "why_tests_cant": "Needs an invariant over every history, including failing calls.", "anchors": ["pypsa/networks.py:Network.add", "pypsa/networks.py:Network.remove", "pypsa/io.py:_import_components_from_df"]}
{"id": "C04", "title": "Time-dependent tables stay aligned with snapshots and components", "statement": "After any sequence of add, remove, set_snapshots and set_investment_periods calls, every time-dependent table has exactly the network's snapshots as its rows and its columns all name existing components, without duplicates.", "quantifier": "all operation histories, all components, all series attributes", "why_tests_cant": "Invariant over histories; a test sees only the histories it writes down.", "anchors": ["pypsa/networks.py:Network.set_snapshots", "pypsa/networks.py:Network.add", "pypsa/networks.py:Network.remove", "pypsa/io.py:_import_components_from_df"]}
{"id": "C05", "title": "add() never disturbs other components", "statement": "n.add(class, names, ...) leaves all static values and all series of every component that is not among the new names, and of every other class, unchanged; a call that raises because of bad arguments leaves the whole network unchanged.", "quantifier": "all networks, all component classes, all argument combinations", "why_tests_cant": "Frame property over all other data and all error paths.", "anchors": ["pypsa/networks.py:Network.add", "pypsa/io.py:_import_components_from_df"]}
{"id": "C06", "title": "add() sets what was asked, and skips existing names unless overwrite", "statement": "After n.add(class, names, **attrs): each new name exists and carries the given value for every given attribute and the default for every attribute not given; a name that existed before keeps its old values when overwrite=False and gets the new values (with none of its old static or time-dependent values surviving) when overwrite=True.", "quantifier": "all networks, names, attributes given as scalars, per-component values or time series", "why_tests_cant": "The stale-series case shows up only for particular histories (series first, overwrite without series later).", "anchors": ["pypsa/networks.py:Network.add", "pypsa/io.py:_import_components_from_df"]}
{"id": "C07", "title": "remove() removes exactly the named components", "statement": "n.remove(class, names) deletes the named components from the static table and from every time-dependent table and leaves everything else unchanged; removing an unknown name raises and leaves the network unchanged; adding fresh components and removing them again restores the previous network.", "quantifier": "all networks, all name lists", "why_tests_cant": "All interleavings of add/remove with other data present.", "anchors": ["pypsa/networks.py:Network.remove"]}
{"id": "C08", "title": "get_switchable_as_dense returns the effective value", "statement": "For every component and requested snapshot, get_switchable_as_dense gives the value of the component's time series if the component has one for that attribute and its static value otherwise, for exactly the requested existing components in table order, and get_switchable_as_iter yields the same rows up to the order of components.", "quantifier": "all networks, attributes, snapshot subsets and component subsets", "why_tests_cant": "Any mixture of static and time-dependent components is allowed.", "anchors": ["pypsa/descriptors.py:get_switchable_as_dense", "pypsa/descriptors.py:get_switchable_as_iter"]}
{"id": "C09", "title": "set_snapshots keeps values on surviving snapshots and uses defaults on new ones", "statement": "After n.set_snapshots(S), every series equals its old value on snapshots that existed before and the attribute's default (weightings: the given default weighting) on new ones; rows for dropped snapshots are gone. If the call raises, nothing changed.", "quantifier": "all networks, all old and new snapshot lists", "why_tests_cant": "Relates every pair of index lists; the failure path needs a state comparison.", "anchors": ["pypsa/networks.py:Network.set_snapshots", "pypsa/networks.py:Network.set_investment_periods"]}
{"id": "C10", "title": "set_investment_periods builds the product of periods and time steps", "statement": "Calling n.set_investment_periods(P) with increasing integer periods on a flat snapshot list turns snapshots into exactly the pairs (p, t) in period-major order, each series value at (p, t) being the old value at t; snapshot weightings at (p, t) are the old ones at t and the weightings of new investment periods default to 1; non-integer or non-increasing periods, or periods that are not exactly those of already multi-indexed snapshots, raise.", "quantifier": "all snapshot lists and period lists", "why_tests_cant": "Unbounded lists and all error branches.", "anchors": ["pypsa/networks.py:Network.set_investment_periods"]}
{"id": "C11", "title": "rename_component_names renames consistently or not at all", "statement": "n.components.X.rename_component_names(old=new) relabels the component in the static table, all its series and all references to it from other components, keeps names unique and every other value unchanged; if it raises, the network is unchanged.", "quantifier": "all networks, component classes and rename maps", "why_tests_cant": "References may live in any other component class; the failure path leaves partial states.", "anchors": ["pypsa/components/abstract.py:Components.rename_component_names"]}
{"id": "C12", "title": "Slicing a network yields a closed sub-network", "statement": "n[buses] (and n[buses, snapshots]) contains exactly the selected buses, exactly those one-port components whose bus is selected and exactly those branches all of whose given ends are selected, with unchanged data restricted to the selected snapshots; in particular it has no reference to a missing bus.", "quantifier": "all networks, all bus and snapshot selections", "why_tests_cant": "Needs all reference patterns, including links with more than two ports.", "anchors": ["pypsa/networks.py:Network.__getitem__"]}
{"id": "C13", "title": "copy() gives an equal and complete network", "statement": "n.copy() equals n; n.copy(snapshots=S) has the same static data and all series restricted to S.", "quantifier": "all networks, all snapshot subsets", "why_tests_cant": "Quantifies over all data in the network.", "anchors": ["pypsa/networks.py:Network.copy"]}
{"id": "C14", "title": "merge combines two networks without loss", "statement": "n.merge(m) on networks with equal snapshots and disjoint component names contains every component of both with unchanged data; overlapping names of any component type not listed in components_to_skip raise before anything is changed; listed types are left as they are in n.", "quantifier": "all pairs of networks, all skip lists", "why_tests_cant": "All pairs of networks and all skip lists.", "anchors": ["pypsa/io.py:merge"]}
{"id": "C15", "title": "Network.equals is an equivalence on content", "statement": "n.equals(n) holds, n.equals(m) equals m.equals(n), and equal results are transitive; equality holds exactly when all compared content coincides.", "quantifier": "all pairs/triples of networks", "why_tests_cant": "Symmetry needs all pairs.", "anchors": ["pypsa/networks.py:Network.equals", "pypsa/common.py:equals", "pypsa/components/abstract.py:Components.equals"]}
{"id": "C16", "title": "Export followed by import gives back the same effective data", "statement": "Exporting a network and importing it into a fresh one gives the same snapshots and weightings, the same components, and for every component, snapshot and attribute the same effective (dense) value.", "quantifier": "all well-formed networks, all attribute values including defaults", "why_tests_cant": "Round trip over all values: default-valued series and columns are dropped on export.", "anchors": ["pypsa/io.py:_export_to_exporter", "pypsa/io.py:_import_from_importer", "pypsa/io.py:ExporterCSV", "pypsa/io.py:ImporterCSV"]}
{"id": "C17", "title": "Exporting over an older export gives the new network", "statement": "Exporting into a folder that holds an older export and importing from it yields the network exported last.", "quantifier": "all pairs of networks exported one after the other into the same place", "why_tests_cant": "History of two exports with arbitrary tables appearing or disappearing.", "anchors": ["pypsa/io.py:ExporterCSV.remove_static", "pypsa/io.py:ExporterCSV.remove_series", "pypsa/io.py:_export_to_exporter"]}
{"id": "C18", "title": "NetCDF variable naming is uniquely decodable", "statement": "The names under which component tables and series are stored in a netCDF file determine the component class, and attribute: distinct tables never share a name and the importer reads back for each (class, attribute) exactly what the exporter stored.", "quantifier": "all component list names of the registry and all attribute names", "why_tests_cant": "Prefix matching over arbitrary attribute names.", "anchors": ["pypsa/io.py:ExporterNetCDF", "pypsa/io.py:ImporterNetCDF"]}
{"id": "C19", "title": "Custom component types cannot clobber existing ones", "statement": "add_component_type refuses a name that is already registered, leaving the registry unchanged, and otherwise makes the new type retrievable by its name and list name without changing any other type.", "quantifier": "all registries and all sequences of registrations", "why_tests_cant": "All histories of registrations and all name/list-name pairs.", "anchors": ["pypsa/components/types.py:add_component_type", "pypsa/components/types.py:get"]}
{"id": "C20", "title": "Sub-networks are exactly the connected components over active passive branches", "statement": "After n.determine_network_topology(), every bus belongs to exactly one sub-network and two buses share a sub-network iff a path of active lines/transformers connects them; every line and transformer that is active lies in the sub-network of its ends.", "quantifier": "all networks, all activity patterns", "why_tests_cant": "Connectivity for every graph.", "anchors": ["pypsa/networks.py:Network.determine_network_topology", "pypsa/graph.py:adjacency_matrix"]}
{"id": "C21", "title": "adjacency_matrix counts every branch", "statement": "The entry (i, j) of n.adjacency_matrix() is the (weighted) number of active branches of the requested components from bus i to bus j.", "quantifier": "all networks and component selections", "why_tests_cant": "All selections of component classes, including empty ones.", "anchors": ["pypsa/graph.py:adjacency_matrix"]}
{"id": "C22", "title": "incidence_matrix columns encode branch ends", "statement": "Every column of the incidence matrix belongs to an active branch with distinct ends, with +1 at its bus0, -1 at its bus1 and 0 elsewhere, so each column sums to zero.", "quantifier": "all networks", "why_tests_cant": "All graphs.", "anchors": ["pypsa/graph.py:incidence_matrix"]}
{"id": "C23", "title": "Every sub-network has exactly one slack bus and a complete bus ordering", "statement": "find_bus_controls / find_slack_bus choose exactly one slack bus for each non-empty sub-network, which is a bus of that sub-network, classify every other bus as exactly one of PV and PQ, and the ordered bus list is a permutation of the sub-network's buses starting with the slack.", "quantifier": "all sub-networks, all generator control assignments", "why_tests_cant": "All assignments of controls and generators to buses.", "anchors": ["pypsa/pf.py:find_slack_bus", "pypsa/pf.py:find_bus_controls"]}
{"id": "C24", "title": "Cycle matrix columns are cycles and span all cycles", "statement": "Every column of the cycle matrix C satisfies K C = 0 for the incidence matrix K, so a KVL statement over the columns holds for every closed loop in the network, including loops formed by parallel branches.", "quantifier": "all sub-networks with multi-edges", "why_tests_cant": "All multigraphs.", "anchors": ["pypsa/pf.py:find_cycles", "pypsa/pf.py:aggregate_multi_graph"]}
{"id": "C25", "title": "Linear power flow balances power at every bus", "statement": "After n.lpf(), at every bus of a sub-network the injected power (including the slack adjustment) equals the net branch outflow, non-slack buses keep their set-point injection, and the slack absorbs exactly the total imbalance.", "quantifier": "all connected sub-networks, impedances, phase shifts and injections", "why_tests_cant": "Algebra over all networks.", "anchors": ["pypsa/pf.py:sub_network_lpf", "pypsa/pf.py:calculate_B_H"]}
{"id": "C26", "title": "Linear power flow flows obey Kirchhoff's voltage law", "statement": "The branch flows of n.lpf() are the angle differences (minus the phase shift) divided by the effective reactance; around every cycle the sum of reactance times flow plus phase shifts vanishes.", "quantifier": "all sub-networks and cycles", "why_tests_cant": "All cycles of all networks.", "anchors": ["pypsa/pf.py:sub_network_lpf", "pypsa/pf.py:calculate_B_H"]}
{"id": "C27", "title": "Linear power flow is linear", "statement": "Without phase shifts, the flows for a sum of injections are the sums of the flows, and scaling injections scales flows; the flows do not depend on the slack choice for balanced injections.", "quantifier": "all networks and injection vectors", "why_tests_cant": "Superposition needs all vectors.", "anchors": ["pypsa/pf.py:sub_network_lpf"]}
{"id": "C28", "title": "PTDF reproduces linear power flow", "statement": "For a balanced injection vector, PTDF times injections equals the LPF branch flows (without phase shifters); the slack column is zero.", "quantifier": "all networks and balanced injections", "why_tests_cant": "All vectors.", "anchors": ["pypsa/pf.py:calculate_PTDF"]}
{"id": "C29", "title": "BODF gives exact post-outage flows", "statement": "f_k + BODF[k,l] f_l is the LPF flow on branch k after removing branch l whenever that removal keeps the network connected: it satisfies KCL with the same injections, KVL for the remaining branches, and the flow on l becomes 0.", "quantifier": "all networks, outages and injections", "why_tests_cant": "All networks and outages.", "anchors": ["pypsa/contingency.py:calculate_BODF", "pypsa/contingency.py:network_lpf_contingency"]}
{"id": "C30", "title": "lpf_contingency leaves unaffected branches unchanged", "statement": "In n.lpf_contingency results, a branch in a different sub-network than the outaged branch keeps its base flow.", "quantifier": "all networks with several sub-networks, all outages", "why_tests_cant": "Needs networks with several sub-networks and all outages.", "anchors": ["pypsa/contingency.py:network_lpf_contingency"]}
{"id": "C31", "title": "Newton-Raphson reports convergence honestly", "statement": "n.pf() reports converged for a sub-network and snapshot only if the reported error is at most x_tol, and stops after at most 100 iterations in every case.", "quantifier": "all residual functions, Jacobians and starting points", "why_tests_cant": "The function is arbitrary; convergence can't be sampled.", "anchors": ["pypsa/pf.py:newton_raphson_sparse"]}
{"id": "C32", "title": "Admittance matrix satisfies the pi-model", "statement": "The bus admittance matrix reproduces for every bus the sum of the branch pi-model terminal currents and the shunt currents, for any tap ratio and tap side; without phase shift it is symmetric and without shunts its rows sum to zero for nominal taps.", "quantifier": "all networks with lines, transformers and shunts", "why_tests_cant": "All networks.", "anchors": ["pypsa/pf.py:calculate_Y"]}
{"id": "C33", "title": "Wye-delta / T-to-pi conversion preserves terminal behaviour", "statement": "The pi-model computed from a transformer's T-model has the same terminal current-voltage relation.", "quantifier": "all impedances for which the conversion is defined", "why_tests_cant": "All complex impedances.", "anchors": ["pypsa/pf.py:wye_to_delta", "pypsa/pf.py:apply_transformer_t_model"]}
{"id": "C34", "title": "Distributed slack allocates exactly the mismatch", "statement": "In n.pf(distribute_slack=True) the adjustments of the buses sum to the slack power and are proportional to the weights, and the generator adjustments at a bus sum to the bus adjustment; any valid slack weights and generator capacities are accepted.", "quantifier": "all weight vectors, all generator fleets", "why_tests_cant": "All weights incl. zeros.", "anchors": ["pypsa/pf.py:sub_network_pf", "pypsa/pf.py:normed"]}
{"id": "C35", "title": "Standard line types scale with length and parallel circuits", "statement": "apply_line_types gives r, x proportional to length / num_parallel and b, s_nom-consistent shunts proportional to length * num_parallel, unchanged on re-application, touching only lines with a type; unknown types raise.", "quantifier": "all line tables", "why_tests_cant": "All tables; idempotence.", "anchors": ["pypsa/pf.py:apply_line_types", "pypsa/pf.py:apply_transformer_types"]}
{"id": "C36", "title": "Activity of assets follows build year and lifetime", "statement": "get_active_assets(c, periods) is true for exactly those assets with active=True whose lifetime interval [build_year, build_year+lifetime) contains one of the given periods; unknown periods raise.", "quantifier": "all build years, lifetimes, periods", "why_tests_cant": "All interval configurations.", "anchors": ["pypsa/components/descriptors.py:get_active_assets", "pypsa/descriptors.py:get_activity_mask"]}
{"id": "C37", "title": "Operational bounds are consistent", "statement": "For every component the lower per-unit bound used in the optimisation is the documented one: symmetric for passive branches, zero and -p_min_pu for storage charging, zero and max_hours for state of charge, and p_min_pu/p_max_pu otherwise.", "quantifier": "all components, snapshots, attributes", "why_tests_cant": "All combinations.", "anchors": ["pypsa/descriptors.py:get_bounds_pu"]}
{"id": "C38", "title": "Nodal balance constraints mean power balance at every bus", "statement": "A dispatch satisfies the generated nodal balance constraints iff at every bus and snapshot the signed injections of all active generators, storage, stores, plus link arrivals times efficiency minus link departures, plus branch flows with losses halved between ends, equal the active loads; a bus with load and nothing else raises.", "quantifier": "all networks, snapshots, multi-port links, loss options", "why_tests_cant": "All topologies; inactive assets; multiple ports.", "anchors": ["pypsa/optimization/constraints.py:define_nodal_balance_constraints"]}
{"id": "C39", "title": "Splitting strongly and weakly meshed buses does not change the model", "statement": "The nodal balance built in two parts (weakly and strongly meshed buses) constrains each bus exactly once, the same as building it in one part.", "quantifier": "all networks and thresholds", "why_tests_cant": "All degree distributions and thresholds.", "anchors": ["pypsa/optimization/optimize.py:create_model", "pypsa/optimization/common.py:get_strongly_meshed_buses"]}
{"id": "C40", "title": "Dispatch limits: inactive or switched-off means zero, otherwise within bounds", "statement": "Any feasible dispatch satisfies p_nom*p_min_pu <= p <= p_nom*p_max_pu for active fixed and extendable assets (with the optimised capacity), is zero for a committed unit with status 0, and stays within the bounds when status is 1.", "quantifier": "all networks and feasible points", "why_tests_cant": "All feasible points.", "anchors": ["pypsa/optimization/constraints.py:define_operational_constraints_for_extendables", "pypsa/optimization/constraints.py:define_operational_constraints_for_non_extendables", "pypsa/optimization/constraints.py:define_operational_constraints_for_committables"]}
{"id": "C41", "title": "Start-up and shut-down variables track status changes", "statement": "For every feasible commitment, start_up(t) >= status(t) - status(t-1) and shut_down(t) >= status(t-1) - status(t), where the state before the first snapshot is the configured initial state (or the last dispatched state in a rolling horizon).", "quantifier": "all feasible schedules, all horizon lengths, all initial states", "why_tests_cant": "All schedules.", "anchors": ["pypsa/optimization/constraints.py:define_operational_constraints_for_committables"]}
{"id": "C42", "title": "Minimum up time is respected", "statement": "In every feasible commitment schedule each unit that starts at a snapshot stays on for at least min_up_time snapshots (or to the end of the horizon), and a unit that was already on with up_time_before < min_up_time stays on for the remaining time.", "quantifier": "all feasible schedules, all min_up_time values, all horizon lengths", "why_tests_cant": "Exponentially many schedules.", "anchors": ["pypsa/optimization/constraints.py:define_operational_constraints_for_committables"]}
{"id": "C43", "title": "Minimum down time is respected", "statement": "In every feasible commitment schedule each unit that shuts down stays off for at least min_down_time snapshots (or to the end of the horizon), and an initially-off unit with down_time_before < min_down_time stays off for the remaining time.", "quantifier": "all feasible schedules, all min_down_time values", "why_tests_cant": "Exponentially many schedules.", "anchors": ["pypsa/optimization/constraints.py:define_operational_constraints_for_committables"]}
{"id": "C44", "title": "Rolling horizon keeps a running unit running-state aware", "statement": "When the optimisation continues after an earlier window, a unit that was on at the last snapshot before the window is treated as initially on, whatever its min_up_time.", "quantifier": "all histories and min_up_time values", "why_tests_cant": "Depends on history and parameter values together.", "anchors": ["pypsa/optimization/constraints.py:define_operational_constraints_for_committables"]}
{"id": "C45", "title": "Ramp limits bound the change of dispatch", "statement": "In every feasible dispatch, for each active asset with a finite ramp limit, the change of dispatch between consecutive snapshots is at most ramp_limit_up * capacity upward and ramp_limit_down * capacity downward, including start-up/shut-down limits for committed units and the change from the last snapshot of the previous window in a rolling horizon.", "quantifier": "all feasible dispatches, fixed/extendable/committable assets, static or time-dependent limits", "why_tests_cant": "All dispatches.", "anchors": ["pypsa/optimization/constraints.py:define_ramp_limit_constraints"]}
{"id": "C46", "title": "Storage energy balance telescopes", "statement": "In every feasible solution the store energy equals the initial energy with standing losses minus all weighted net discharge so far; for a cyclic store without losses the weighted net discharge over the cycle is zero; hence no energy is created.", "quantifier": "all horizons, weightings, losses, feasible solutions", "why_tests_cant": "Induction over the horizon.", "anchors": ["pypsa/optimization/constraints.py:define_store_constraints", "pypsa/optimization/constraints.py:define_storage_unit_constraints"]}
{"id": "C47", "title": "Multi-period storage restarts only where documented", "statement": "With several investment periods, a non-cyclic store restarts at its initial energy at the beginning of a period iff e_initial_per_period is set, and a cyclic store closes its cycle per period iff e_cyclic_per_period is set; otherwise energy is carried over.", "quantifier": "all period structures, all flag combinations, activity windows", "why_tests_cant": "Combination of 4 flags with period and activity structure.", "anchors": ["pypsa/optimization/constraints.py:define_store_constraints", "pypsa/optimization/constraints.py:define_storage_unit_constraints"]}
{"id": "C48", "title": "Piecewise loss approximation brackets the true losses", "statement": "For every flow within the line rating, the loss forced by the tangent constraints is at most r*flow^2 and at least r*flow^2 - r*(S/(2N))^2 where S is the rating and N the number of tangents, and the true loss is feasible for the upper bound.", "quantifier": "all flows in [-S,S], N >= 1, r >= 0", "why_tests_cant": "Continuum of flows.", "anchors": ["pypsa/optimization/constraints.py:define_loss_constraints"]}
{"id": "C49", "title": "KVL constraints are equivalent to the existence of voltage angles", "statement": "Flows satisfy the generated cycle constraints of a sub-network iff there are bus angles with flow = angle difference / reactance for each branch.", "quantifier": "all sub-networks and flows", "why_tests_cant": "All graphs and flows.", "anchors": ["pypsa/optimization/constraints.py:define_kirchhoff_voltage_constraints"]}
{"id": "C50", "title": "Capacity bounds and module sizes", "statement": "Every feasible capacity of an active extendable asset lies in [nom_min, nom_max], equals nom_set if one is given, and is a whole multiple of the module size for modular assets.", "quantifier": "all assets and feasible points", "why_tests_cant": "All feasible points, infinite bounds.", "anchors": ["pypsa/optimization/constraints.py:define_nominal_constraints_for_extendables", "pypsa/optimization/constraints.py:define_fixed_nominal_constraints", "pypsa/optimization/constraints.py:define_modular_constraints"]}
{"id": "C51", "title": "Primary-energy limit counts emissions of all generation plus storage depletion", "statement": "A solution satisfies a primary_energy constraint iff the weighted generation divided by efficiency times the carrier attribute plus the depletion of non-cyclic storage of such carriers is on the right side of the constant.", "quantifier": "all networks and solutions", "why_tests_cant": "All solutions.", "anchors": ["pypsa/optimization/global_constraints.py:define_primary_energy_limit"]}
{"id": "C52", "title": "Operational limit counts net production", "statement": "A solution satisfies an operational_limit constraint iff weighted generation of the carrier plus net depletion of non-cyclic storage of that carrier is on the right side of the constant.", "quantifier": "all networks and solutions", "why_tests_cant": "All solutions.", "anchors": ["pypsa/optimization/global_constraints.py:define_operational_limit"]}
{"id": "C53", "title": "Technology capacity limits sum exactly the matching assets", "statement": "nom_min_/nom_max_ columns of buses and tech_capacity_expansion_limit constraints bound the sum of exactly the active extendable assets with that carrier (and bus and period); a malformed column name never silently constrains another carrier.", "quantifier": "all carrier names, columns and periods", "why_tests_cant": "Arbitrary carrier names, including names with underscores and digits.", "anchors": ["pypsa/optimization/global_constraints.py:define_nominal_constraints_per_bus_carrier", "pypsa/optimization/global_constraints.py:define_tech_capacity_expansion_limit"]}
{"id": "C54", "title": "Transmission volume/cost limits weigh every extendable branch once", "statement": "transmission_volume_expansion_limit bounds the sum of length times capacity over the extendable branches with a listed carrier; the cost limit does the same with capital cost.", "quantifier": "all networks and carrier lists", "why_tests_cant": "All carrier strings.", "anchors": ["pypsa/optimization/global_constraints.py:define_transmission_volume_expansion_limit", "pypsa/optimization/global_constraints.py:define_transmission_expansion_cost_limit"]}
{"id": "C55", "title": "Growth limits compare consecutive periods", "statement": "The capacity newly built in a period is bounded by max_growth plus max_relative_growth times the capacity newly built in the preceding period, for each limited carrier.", "quantifier": "all period lists and assets", "why_tests_cant": "All period structures.", "anchors": ["pypsa/optimization/global_constraints.py:define_growth_limit"]}
{"id": "C56", "title": "Objective plus constant is the total system cost", "statement": "For any solution, objective value plus objective_constant equals weighted marginal, storage, spill, quadratic, stand-by, start-up and shut-down costs plus capital cost of all extendable capacity built.", "quantifier": "all networks and solutions, all cost signs", "why_tests_cant": "All cost vectors, incl. those that sum to zero.", "anchors": ["pypsa/optimization/optimize.py:define_objective"]}
{"id": "C57", "title": "Assigned results satisfy nodal power balance", "statement": "After a successful solve, the recorded results satisfy: p1 = -p0 minus losses for branches, link outputs are minus efficiency times input, storage p = dispatch - store, non-extendable assets have nom_opt = nom, and the bus injections sum with branch flows to zero at every bus.", "quantifier": "all solutions", "why_tests_cant": "All solutions and inactive assets.", "anchors": ["pypsa/optimization/optimize.py:assign_solution", "pypsa/optimization/optimize.py:post_processing"]}
{"id": "C58", "title": "fix_optimal_capacities freezes capacities without changing feasibility", "statement": "After optimisation, fix_optimal_capacities makes every asset non-extendable at its optimal capacity and the old solution stays feasible for the fixed model.", "quantifier": "all networks and solutions", "why_tests_cant": "All solutions.", "anchors": ["pypsa/optimization/optimize.py:OptimizationAccessor.fix_optimal_capacities"]}
{"id": "C59", "title": "Load shedding makes nodal balances satisfiable", "statement": "After add_load_shedding the nodal balance of every selected bus can be met whatever the non-negative net load; existing components are untouched.", "quantifier": "all networks and loads", "why_tests_cant": "All loads.", "anchors": ["pypsa/optimization/optimize.py:OptimizationAccessor.add_load_shedding"]}
{"id": "C60", "title": "Discretised capacities are feasible multiples", "statement": "discretized_capacity returns a multiple of the unit size (or the maximum when fractional last units are allowed), never above nom_max when nom_opt <= nom_max, within one unit of nom_opt, rounding up exactly when the fractional part reaches the threshold and the rounded-up value fits.", "quantifier": "all rationals nom_opt, nom_max, unit size, thresholds", "why_tests_cant": "Continuum of inputs with edge cases at the boundary.", "anchors": ["pypsa/optimization/abstract.py:discretized_capacity"]}
{"id": "C61", "title": "Iterative expansion keeps impedance times capacity invariant", "statement": "In optimize_transmission_expansion_iteratively each iteration rescales line impedances inversely to the change of capacity, so x * s_nom and r * s_nom of an extendable line keep their initial value; afterwards all input capacities are restored.", "quantifier": "all iteration counts and capacities", "why_tests_cant": "All iteration counts.", "anchors": ["pypsa/optimization/abstract.py:optimize_transmission_expansion_iteratively"]}
{"id": "C62", "title": "Security constraints cover every outage", "statement": "The security-constrained model forces, for each listed outage and each branch in the same sub-network, the post-outage flow f_k + BODF[k,l] f_l to be within the rating; branches of other sub-networks are not coupled.", "quantifier": "all networks and outage lists", "why_tests_cant": "All outages.", "anchors": ["pypsa/optimization/abstract.py:optimize_security_constrained"]}
{"id": "C63", "title": "Rolling horizon covers every snapshot in order", "statement": "optimize_with_rolling_horizon optimises every snapshot at least once, in windows of at most `horizon` consecutive snapshots, consecutive windows overlapping by exactly `overlap` snapshots, each window starting from the recorded state of the snapshot before; overlap >= horizon raises.", "quantifier": "all snapshot counts, horizons, overlaps", "why_tests_cant": "All triples of integers.", "anchors": ["pypsa/optimization/abstract.py:optimize_with_rolling_horizon"]}
{"id": "C64", "title": "MGA budget bounds the true total cost", "statement": "optimize_mga adds a constraint that holds for exactly those solutions whose total system cost is at most (1+slack) times the optimal cost, and optimises in the requested direction.", "quantifier": "all networks, solutions, slacks, weights", "why_tests_cant": "All solutions.", "anchors": ["pypsa/optimization/abstract.py:optimize_mga"]}
{"id": "C65", "title": "Clustering one-ports conserves totals", "statement": "Aggregating generators/loads/storage by a busmap gives one asset per cluster and carrier, keeps the total of every extensive attribute (powers, capacities and their bounds, inflow, initial energy) per cluster and carrier, keeps the sum of capacity times every value per unit of capacity (available power, cost, hours of storage) at every snapshot, and raises exactly if assets to be merged disagree in an attribute without a rule.", "quantifier": "all networks and busmaps", "why_tests_cant": "All groupings and values.", "anchors": ["pypsa/clustering/spatial.py:aggregateoneport", "pypsa/clustering/spatial.py:normed_or_uniform"]}
{"id": "C66", "title": "Clustering lines conserves admittance and drops only intra-cluster lines", "statement": "Aggregating lines by a busmap drops exactly the lines inside one cluster, maps each other line to exactly one cluster line between the clusters of its ends, conserves total s_nom and total susceptance between each pair of clusters, and never creates self-loops or duplicate pairs.", "quantifier": "all networks and busmaps", "why_tests_cant": "All multigraphs and busmaps.", "anchors": ["pypsa/clustering/spatial.py:aggregatelines"]}
{"id": "C67", "title": "A clustered network has no dangling bus references", "statement": "Every bus referenced by a component of the clustered network exists in it.", "quantifier": "all networks (with multi-port links) and total busmaps", "why_tests_cant": "All references at all ports.", "anchors": ["pypsa/clustering/spatial.py:get_clustering_from_busmap"]}
{"id": "C68", "title": "Flattened cluster names are unique", "statement": "Aggregated component names built from (bus, carrier) pairs are distinct for distinct pairs.", "quantifier": "all bus and carrier names", "why_tests_cant": "Arbitrary strings with spaces.", "anchors": ["pypsa/clustering/spatial.py:flatten_multiindex"]}
{"id": "C69", "title": "busmap_by_stubs terminates and merges only stubs into their neighbours", "statement": "busmap_by_stubs terminates and maps every bus to a bus that maps to itself; the buses of one cluster are connected by branches among themselves and agree in the matching attributes; every bus of a mesh keeps its own cluster; and no bus that could still be merged is left (self-loops apart).", "quantifier": "all graphs", "why_tests_cant": "Termination and fixpoint over all graphs.", "anchors": ["pypsa/clustering/spatial.py:busmap_by_stubs"]}
{"id": "C70", "title": "strict consistency checks raise for every listed check", "statement": "n.consistency_check(strict=[...]) raises whenever a listed check finds a violation (\"all\" meaning every check), raises ValueError for unknown check names and otherwise never raises.", "quantifier": "all networks and strict lists", "why_tests_cant": "All combinations of violations and strict lists.", "anchors": ["pypsa/consistency.py:consistency_check", "pypsa/consistency.py:check_for_unknown_carriers"]}
{"id": "C71", "title": "unknown-bus check is exact", "statement": "check_for_unknown_buses reports a component iff one of its given bus references is missing from n.buses (empty optional link ports and inactive components treated as documented).", "quantifier": "all networks", "why_tests_cant": "All references.", "anchors": ["pypsa/consistency.py:check_for_unknown_buses"]}
{"id": "C72", "title": "Supply minus withdrawal is the energy balance", "statement": "For any network, aggregation and grouping by sums, statistics.supply minus statistics.withdrawal equals statistics.energy_balance group by group, and supply and withdrawal are non-negative.", "quantifier": "all networks with non-negative weightings, all groupings", "why_tests_cant": "All series values and groupings.", "anchors": ["pypsa/statistics/expressions.py:StatisticsAccessor.energy_balance", "pypsa/statistics/expressions.py:StatisticsAccessor.supply", "pypsa/statistics/expressions.py:StatisticsAccessor.withdrawal"]}
{"id": "C73", "title": "Grouping and port selection never lose or double count", "statement": "The total of a statistic over all groups equals the total over all components and ports for every grouper; only the requested ports are counted.", "quantifier": "all groupers, port selections, networks", "why_tests_cant": "All groupers.", "anchors": ["pypsa/statistics/abstract.py:AbstractStatisticsAccessor._aggregate_components"]}
{"id": "C74", "title": "drop_zero=False keeps zero rows", "statement": "Statistics called with drop_zero=False contain an entry for every group, also if its value is zero; with drop_zero=True exactly the non-zero ones.", "quantifier": "all statistics and networks", "why_tests_cant": "Needs all values including exact zeros.", "anchors": ["pypsa/statistics/expressions.py:StatisticsAccessor._apply_option_kwargs"]}
{"id": "C75", "title": "Time-mean statistics are weighted means", "statement": "aggregate_time=\"mean\" returns the weighted average of the series, lying between its minimum and maximum, equal to the constant for a constant series, and equal to the weighted sum divided by the total weight; per investment period for multi-period networks.", "quantifier": "all series and weightings with positive sum", "why_tests_cant": "All series.", "anchors": ["pypsa/statistics/abstract.py:AbstractStatisticsAccessor._aggregate_timeseries"]}
{"id": "C76", "title": "Installed plus expanded capex is total capex", "statement": "statistics.capex equals installed_capex plus expanded_capex for each group; expanded_capacity is zero where capacity did not grow.", "quantifier": "all networks", "why_tests_cant": "All groups, missing entries and signs.", "anchors": ["pypsa/statistics/expressions.py:StatisticsAccessor.expanded_capex", "pypsa/statistics/expressions.py:StatisticsAccessor.expanded_capacity"]}
{"id": "C77", "title": "Overall energy balance over all ports vanishes", "statement": "If all buses are balanced at every snapshot and weightings agree, the sum of the energy balance over all components and ports attached to buses of one bus carrier is zero.", "quantifier": "all balanced networks, all bus carriers", "why_tests_cant": "All balanced dispatches.", "anchors": ["pypsa/statistics/expressions.py:StatisticsAccessor.energy_balance"]}
{"id": "C78", "title": "Bounding box contains all points", "statement": "compute_bbox returns a box containing all given points, enlarged by the margin on each side.", "quantifier": "all coordinate arrays", "why_tests_cant": "All arrays.", "anchors": ["pypsa/geo.py:compute_bbox"]}
{"id": "C79", "title": "Great-circle distance is a symmetric non-negative distance", "statement": "haversine_pts(a, b) = haversine_pts(b, a) >= 0 with value 0 for equal points.", "quantifier": "all coordinates", "why_tests_cant": "Continuum.", "anchors": ["pypsa/geo.py:haversine_pts"]}
{"id": "C80", "title": "Deprecated keyword aliases are translated faithfully", "statement": "A call with a deprecated keyword behaves like the call with the new keyword; giving both raises; calls without aliases are unchanged.", "quantifier": "all keyword dictionaries and alias tables", "why_tests_cant": "All dictionaries.", "anchors": ["pypsa/common.py:rename_deprecated_kwargs"]}
{"id": "C81", "title": "as_index accepts exactly snapshot subsets", "statement": "as_index(n, values, attr) returns the full index for None, the given labels in the given order when all are contained in the network's index, and raises otherwise.", "quantifier": "all indices and value lists", "why_tests_cant": "All lists.", "anchors": ["pypsa/common.py:as_index"]}
{"id": "C82", "title": "A converged AC power flow balances power at every bus", "statement": "When n.pf() reports convergence for a snapshot, then at every bus the written active power equals the sum of the active flows into its branches and its shunts up to x_tol, likewise the reactive power (shunt reactive power counting as generation), slack and PV buses keep their voltage set points and the slack bus angle is zero.", "quantifier": "all AC sub-networks with at least two buses, all starting points, tolerances and slack weights", "why_tests_cant": "All networks and operating points; a test only sees a few grids.", "anchors": ["pypsa/pf.py:sub_network_pf", "pypsa/pf.py:newton_raphson_sparse", "pypsa/pf.py:calculate_Y"]}
{"id": "C83", "title": "The Newton step uses the exact derivative", "statement": "The matrix n.pf() solves with in each iteration is the exact Jacobian of the power mismatch with respect to the unknown angles, magnitudes and slack power, so the iteration is Newton's method.", "quantifier": "all networks, all operating points with positive voltages", "why_tests_cant": "A slightly wrong Jacobian still converges on test grids, only slower; only a proof distinguishes them.", "anchors": ["pypsa/pf.py:sub_network_pf"]}
{"id": "C84", "title": "Ramp limits of committed units exclude no other schedule", "statement": "Every schedule of a committed unit that stays within its capacity bounds while on, is zero while off, changes by at most the ramp limits while it stays on, is at most the start-up limit after a start and at most the shut-down limit before a stop, is admitted by the optimisation.", "quantifier": "all schedules, limits and horizons", "why_tests_cant": "All schedules; a test would only notice a higher cost.", "anchors": ["pypsa/optimization/constraints.py:define_ramp_limit_constraints"]}
{"id": "C85", "title": "Unit commitment excludes no schedule that keeps minimum times", "statement": "For every on/off schedule that keeps minimum up and down times (including those begun before the window) and every dispatch within the bounds of the snapshots where the unit is on, there are start-up and shut-down decisions, exactly at the changes of state, with which the optimisation admits it.", "quantifier": "all schedules, minimum times and horizon lengths", "why_tests_cant": "Exponentially many schedules.", "anchors": ["pypsa/optimization/constraints.py:define_operational_constraints_for_committables"]}
{"id": "C86", "title": "The linearised unit commitment is a relaxation", "statement": "Every on/off schedule admitted by the exact unit commitment is admitted with linearized_unit_commitment=True.", "quantifier": "all schedules, bounds, ramp limits", "why_tests_cant": "All schedules; optimal values of a few cases do not show which schedules are cut off.", "anchors": ["pypsa/optimization/constraints.py:define_operational_constraints_for_committables"]}
{"id": "C87", "title": "Linear power flow reproduces the optimised flows", "statement": "When the optimised dispatch is fed into a linear power flow, the passive branches carry the optimised flows.", "quantifier": "all networks without losses and all optimal solutions", "why_tests_cant": "All networks and solutions.", "anchors": ["pypsa/optimization/constraints.py:define_kirchhoff_voltage_constraints", "pypsa/pf.py:sub_network_lpf"]}
{"id": "C88", "title": "Set points and energy sums are respected", "statement": "A dispatch, state of charge or flow given as set point is taken exactly by the optimisation, and the weighted sum of a generator's dispatch stays within e_sum_min and e_sum_max.", "quantifier": "all networks, snapshots and solutions", "why_tests_cant": "All solutions.", "anchors": ["pypsa/optimization/constraints.py:define_fixed_operation_constraints", "pypsa/optimization/constraints.py:define_total_supply_constraints"]}
{"id": "C89", "title": "Results of earlier windows survive a later optimisation", "statement": "Optimising some snapshots records results for them and leaves the results recorded for all other snapshots unchanged; after a series of disjoint windows each snapshot holds the result of its window.", "quantifier": "all windows, tables and solutions", "why_tests_cant": "All sequences of windows; a test sees only a few tables of a few networks.", "anchors": ["pypsa/optimization/common.py:set_from_frame", "pypsa/optimization/optimize.py:assign_solution", "pypsa/optimization/optimize.py:post_processing"]}
{"id": "C90", "title": "Marginal prices are duals per weighted unit", "statement": "After an optimisation the marginal price of a bus times the objective weight of the snapshot is the dual variable of its nodal balance.", "quantifier": "all networks, weights and solutions", "why_tests_cant": "All weights; tests mostly use weight one.", "anchors": ["pypsa/optimization/optimize.py:assign_duals", "pypsa/optimization/optimize.py:post_processing"]}
{"id": "C91", "title": "Voltage angles after the optimisation explain the flows", "statement": "After an optimisation the voltage angles differ across every passive branch by impedance times flow (plus phase shift), and the angle of the slack bus is zero.", "quantifier": "all networks and solutions", "why_tests_cant": "All networks and solutions.", "anchors": ["pypsa/optimization/optimize.py:post_processing"]}
{"id": "C92", "title": "Ratings hold including losses; storage stays within its bounds", "statement": "For every solution, flow plus losses of a passive branch are within s_max_pu times its (optimised) capacity, hence also the recorded power at both ends; storage units charge, discharge and are filled at most at their limits, so that their net dispatch is between p_min_pu and p_max_pu; other assets are within their bounds; and nothing else is excluded by these rows.", "quantifier": "all assets, capacities and solutions", "why_tests_cant": "All solutions.", "anchors": ["pypsa/descriptors.py:get_bounds_pu", "pypsa/optimization/constraints.py:define_operational_constraints_for_non_extendables", "pypsa/optimization/constraints.py:define_operational_constraints_for_extendables"]}
{"id": "C93", "title": "A bus carrier filter selects what stands for those carriers", "statement": "Statistics called with bus_carrier contain exactly the ports attached to buses whose carrier is one of the given carriers (or matches the given string), in every component class alike.", "quantifier": "all networks, ports and bus carriers", "why_tests_cant": "All networks and filters; string arguments are patterns.", "anchors": ["pypsa/statistics/abstract.py:_filter_bus_carrier", "pypsa/statistics/expressions.py:filter_bus_carrier", "pypsa/statistics/expressions.py:port_efficiency"]}
{"id": "C94", "title": "Capacity factors lie between zero and one", "statement": "The capacity factor of each group is the weighted mean output over the optimal capacity; if the output of each asset lies between zero and its capacity the capacity factor lies between zero and one, also for groups of several assets.", "quantifier": "all networks, groups and series", "why_tests_cant": "All series and groupings.", "anchors": ["pypsa/statistics/expressions.py:capacity_factor"]}
{"id": "C95", "title": "Curtailment is what is available but not used", "statement": "statistics.curtailment is the weighted sum of p_max_pu times optimal capacity minus the dispatch for each group, and is not negative if dispatch does not exceed what is available.", "quantifier": "all networks, groups and series", "why_tests_cant": "All series and groupings.", "anchors": ["pypsa/statistics/expressions.py:curtailment"]}
{"id": "C96", "title": "Revenues of all components cancel", "statement": "If all buses are balanced in every snapshot and weightings agree, the sum of statistics.revenue over all components and ports is zero at any prices: what is paid is earned.", "quantifier": "all networks, prices and dispatch", "why_tests_cant": "All prices and networks.", "anchors": ["pypsa/statistics/expressions.py:revenue"]}
{"id": "C97", "title": "Cost statistics add up to the system cost", "statement": "The sum of statistics.capex and statistics.opex of a solved network is the objective plus the constant, i.e. the total system cost of the recorded solution.", "quantifier": "all networks and solutions", "why_tests_cant": "All networks and solutions.", "anchors": ["pypsa/statistics/expressions.py:capex", "pypsa/statistics/expressions.py:opex", "pypsa/optimization/optimize.py:define_objective"]}
{"id": "C98", "title": "Market values lie within the prices obtained", "statement": "statistics.market_value of a group whose assets only inject lies between the lowest and the highest price at their buses.", "quantifier": "all networks, prices and dispatch", "why_tests_cant": "All prices, weightings and groupings.", "anchors": ["pypsa/statistics/expressions.py:market_value", "pypsa/statistics/expressions.py:revenue", "pypsa/statistics/expressions.py:supply"]}
{"id": "C99", "title": "Clustering preserves connectivity", "statement": "Buses joined by branches of a network lie in clusters joined by branches of the clustered network, clusters that are joined contain buses that are, and links keep their cost per kilometre.", "quantifier": "all networks and total busmaps", "why_tests_cant": "Paths of arbitrary length in arbitrary multigraphs.", "anchors": ["pypsa/clustering/spatial.py:get_clustering_from_busmap", "pypsa/clustering/spatial.py:aggregatelines"]}
{"id": "C100", "title": "A registered component type keeps its table of attributes as documented", "statement": "add_component_type stores each given attribute in the given order; attributes of type series have no static value, exactly those of type series and static or series may vary in time, truth values, texts and numbers get defaults of their type, and registering the formatted table again changes nothing.", "quantifier": "all tables of attributes", "why_tests_cant": "All tables; a test sees a few attributes.", "anchors": ["pypsa/components/types.py:add_component_type"]}
{"id": "C101", "title": "Networks do not depend on the links of other networks", "statement": "Whatever links with more than two ports were added to other networks before, a network can be optimised and solved, and adding links to one network leaves the others unchanged.", "quantifier": "all histories of creating networks and adding links", "why_tests_cant": "All interleavings of operations on several networks of one process.", "anchors": ["pypsa/descriptors.py:update_linkports_component_attrs", "pypsa/components/abstract.py:_get_data_containers"]}
{"id": "C102", "title": "Links with more ports get complete data", "statement": "When links with further ports are added, given values are kept, missing ones are the defaults, links that were there keep their values and have no bus at the new ports, and everything that an optimisation or a power flow reads for each port exists.", "quantifier": "all networks, links and port names", "why_tests_cant": "All port names, columns and previous networks.", "anchors": ["pypsa/descriptors.py:update_linkports_component_attrs", "pypsa/descriptors.py:additional_linkports", "pypsa/io.py:_import_components_from_df"]}
{"id": "C103", "title": "An imported PYPOWER case is the same electrical network", "statement": "After import_from_pypower_ppc (with transformers set to the pi model) the voltages that balance all buses in the power flow are those that solve the power flow of the case, and the linear power flow sees the same reactances and phase shifts; components out of service take no part.", "quantifier": "all cases, base powers, taps, phase shifts, nominal voltages and voltages", "why_tests_cant": "All networks and voltages; a test compares the solution of one case.", "anchors": ["pypsa/io.py:import_from_pypower_ppc", "pypsa/pf.py:calculate_dependent_values", "pypsa/pf.py:calculate_Y"]}
{"id": "C104", "title": "Import from PYPOWER keeps every component", "statement": "Every bus, generator, demand and branch of a PYPOWER case appears exactly once in the imported network with its bus, set points and rating; lines join buses of equal nominal voltage; controls follow the bus types; every valid case can be imported.", "quantifier": "all cases", "why_tests_cant": "All cases, including zero ratings, zero nominal voltages and several generators at a bus.", "anchors": ["pypsa/io.py:import_from_pypower_ppc"]}
{"id": "C105", "title": "Closed switches merge buses", "statement": "After import_from_pandapower_net every component is attached to a bus that exists, and two components share a bus exactly if their buses were joined by closed switches.", "quantifier": "all nets and sets of switches", "why_tests_cant": "All arrangements of switches, in particular chains and rings.", "anchors": ["pypsa/io.py:import_from_pandapower_net"]}
{"id": "C106", "title": "Importing pandapower data or types gives the same impedances", "statement": "A line or transformer imported from pandapower with its own data has the same impedances in the power flow as one imported through a standard type with these data.", "quantifier": "all lines, transformers and ratings", "why_tests_cant": "All parameters; the tests use one net.", "anchors": ["pypsa/io.py:import_from_pandapower_net", "pypsa/pf.py:apply_transformer_types", "pypsa/pf.py:apply_line_types"]}
{"id": "C107", "title": "An extendable asset earns exactly its costs", "statement": "After n.optimize with linear costs, an extendable asset without limits on its capacity earns at the marginal prices, together with what constraints beyond the nodal balance pay or charge, exactly its operational and capital costs; this holds for generators, links, stores, storage units, lines and transformers, with snapshot weightings and investment periods.", "quantifier": "all networks, weightings, further constraints and optimal answers", "why_tests_cant": "All networks and optimal answers at once; a test solves single networks.", "anchors": ["pypsa/optimization/optimize.py:create_model", "pypsa/optimization/optimize.py:define_objective", "pypsa/optimization/optimize.py:assign_duals", "pypsa/optimization/constraints.py:define_nodal_balance_constraints"]}
{"id": "C108", "title": "No asset that may stand still makes a loss", "statement": "After n.optimize with linear costs, an asset that may stand still and need not be built earns at the marginal prices, together with what constraints beyond the nodal balance pay or charge, at least its costs.", "quantifier": "all networks, weightings, further constraints and optimal answers", "why_tests_cant": "All networks and optimal answers at once.", "anchors": ["pypsa/optimization/optimize.py:create_model", "pypsa/optimization/optimize.py:define_objective", "pypsa/optimization/optimize.py:assign_duals", "pypsa/optimization/constraints.py:define_nodal_balance_constraints"]}
{"id": "C109", "title": "Merit order", "statement": "After n.optimize with linear costs, the price at the bus of a generator without commitment, ramp limits and set point is at most its marginal cost if it runs below its upper limit and at least its marginal cost if it runs above its lower limit, up to what further constraints charge; likewise for the difference of the prices at the buses of a link weighted by its efficiencies.", "quantifier": "all networks, snapshots and optimal answers", "why_tests_cant": "All networks and optimal answers at once.", "anchors": ["pypsa/optimization/optimize.py:create_model", "pypsa/optimization/optimize.py:define_objective", "pypsa/optimization/optimize.py:assign_duals", "pypsa/optimization/constraints.py:define_nodal_balance_constraints"]}
{"id": "C110", "title": "The marginal price is the cost of more load", "statement": "After n.optimize with linear costs, any feasible operation for other loads costs at least the optimum plus the change of the loads valued at the marginal prices and weightings.", "quantifier": "all networks, changes of load and feasible points", "why_tests_cant": "All changes of load at all buses and snapshots.", "anchors": ["pypsa/optimization/optimize.py:create_model", "pypsa/optimization/optimize.py:define_objective", "pypsa/optimization/optimize.py:assign_duals", "pypsa/optimization/constraints.py:define_nodal_balance_constraints"]}
{"id": "C111", "title": "Storage leaves no gain from moving energy in time", "statement": "After n.optimize with linear costs and without investment periods, for a store or storage unit that could hold more between two snapshots the price now, with costs and losses, is at least the price next, and at most if it could hold less.", "quantifier": "all networks, snapshots, losses, efficiencies and optimal answers", "why_tests_cant": "All networks and optimal answers at once.", "anchors": ["pypsa/optimization/optimize.py:create_model", "pypsa/optimization/optimize.py:define_objective", "pypsa/optimization/optimize.py:assign_duals", "pypsa/optimization/constraints.py:define_nodal_balance_constraints", "pypsa/optimization/constraints.py:define_storage_unit_constraints", "pypsa/optimization/constraints.py:define_store_constraints"]}
{"id": "C112", "title": "Shadow prices are found where they are documented", "statement": "After n.optimize the shadow price of each limit of operation of each asset is found at the documented time series (mu_upper, mu_lower) of the asset with the documented sign, and that of each global constraint at its mu.", "quantifier": "all networks, assets, snapshots and further constraints", "why_tests_cant": "All assets and the order of all constraints; a later constraint may overwrite an earlier one.", "anchors": ["pypsa/optimization/optimize.py:assign_duals", "pypsa/optimization/common.py:set_from_frame", "pypsa/optimization/constraints.py:define_operational_constraints_for_non_extendables"]}
{"id": "C113", "title": "Recorded results of the power flow balance component by component", "statement": "After n.pf(), at every bus of every sub-network reported as converged, the recorded p and q of generators, loads, stores and storage units (with their signs, if in service) minus the recorded flows into links equal, within the tolerance, the sum of the recorded flows into lines, transformers and shunts, and agree with what is recorded for the bus; with single slack, distributed slack and at sub-networks with one bus.", "quantifier": "For all networks, set points, links, tolerances, numbers of sub-networks, slack weights and iterations of the solver.", "why_tests_cant": "Tests compare bus values on a few networks; they do not sum the tables of the components after the slack has been handed out over several sub-networks.", "anchors": ["pypsa/pf.py:75-220", "pypsa/pf.py:320-420", "pypsa/pf.py:600-820"]}
{"id": "C114", "title": "More options never make the optimum worse", "statement": "Adding generators, links, stores, storage units, lines or transformers that may stand still (lower limits at most zero, no obligation to build) to a network never makes n.optimize infeasible and never raises the total system costs: every former solution stays feasible with the new assets at rest, at the same costs.", "quantifier": "For all networks, all lists of added assets of every class, all solutions; further constraints that do not bind the new assets to a value other than zero.", "why_tests_cant": "Tests add one asset to one network; whether constraints of the other assets change with the class an asset is added to needs all networks.", "anchors": ["pypsa/optimization/optimize.py:create_model", "pypsa/optimization/optimize.py:define_objective", "pypsa/optimization/optimize.py:assign_duals", "pypsa/optimization/constraints.py:define_nodal_balance_constraints", "pypsa/optimization/constraints.py:393-570", "pypsa/optimization/optimize.py:212-333"]}
{"id": "C115", "title": "The order in which components were added does not matter", "statement": "If buses and components of a network are added in another order, n.optimize can be set up just as well, has the same variables and feasible points, the same value of the objective at each of them and the same nodal balance at each bus and snapshot.", "quantifier": "For all networks and all permutations of buses, generators, links, stores, storage units, lines, transformers and loads.", "why_tests_cant": "Tests use a few orders; the number of orders grows faster than exponentially and rows are split by bus and class.", "anchors": ["pypsa/optimization/optimize.py:create_model", "pypsa/optimization/optimize.py:define_objective", "pypsa/optimization/optimize.py:assign_duals", "pypsa/optimization/constraints.py:define_nodal_balance_constraints", "pypsa/optimization/optimize.py:212-333", "pypsa/optimization/optimize.py:68-200"]}
{"id": "C116", "title": "What a rolling horizon records is a plan for the whole horizon", "statement": "For a network with fixed capacities, without commitment and with storage that is neither cyclic nor loses energy between snapshots, the results recorded by n.optimize.optimize_with_rolling_horizon for any horizon and any smaller overlap satisfy every constraint of n.optimize for all snapshots at once: limits, ramp limits across window borders, set points, energy balances of stores and storage units, losses, nodal balance and constraints on single snapshots such as the voltage law. So they never cost less than the optimum of the whole horizon.", "quantifier": "For all networks of this kind, all numbers of snapshots, horizons, overlaps, and all solutions the solver returns for the windows.", "why_tests_cant": "Tests run one horizon on one network; that the pieces taken from overlapping windows fit together at every border needs induction over the windows.", "anchors": ["pypsa/optimization/abstract.py:optimize_with_rolling_horizon", "pypsa/optimization/constraints.py:393-570", "pypsa/optimization/optimize.py:212-400"]}
{"id": "C117", "title": "Statistic expressions agree with the statistics after solving", "statement": "The value at the solution of each expression of n.optimize.expressions (energy balance, supply, withdrawal, transmission, capital costs, capacity, costs of operation, curtailment, operation) equals the statistic of the same name of n.statistics after the solution has been recorded, for every grouping, selection of ports and carriers and aggregation over time.", "quantifier": "For all networks, solutions, classes, ports, groupings, filters and weightings.", "why_tests_cant": "Tests only check that the expressions can be built; agreement must hold at every point and for all classes and ports.", "anchors": ["pypsa/optimization/expressions.py:46-627", "pypsa/statistics/expressions.py:43-107", "pypsa/optimization/optimize.py:assign_solution"]}
{"id": "C118", "title": "Workbooks and HDF5 stores keep tables, columns, attributes and meta data", "statement": "A network exported to an Excel workbook or an HDF5 store and read again has every static table, every time series with its columns, every attribute of the network such as its name, and its meta data, also if the workbook held another network before; nothing of the older workbook is read.", "quantifier": "For all networks, lists of classes and attributes, older workbooks and meta data.", "why_tests_cant": "Tests export a few networks to new files; sheets of other classes and attributes could share a name, and older workbooks can hold anything.", "anchors": ["pypsa/io.py:283-581", "pypsa/io.py:719-850", "pypsa/io.py:1192-1303", "pypsa/networks.py:297-346"]}
{"id": "C119", "title": "Units do not matter", "statement": "If every attribute of a network is given in another unit of power, of time (weightings, hours of storage) and of money, n.optimize can be set up just as well, its feasible points and optima are the same points in the new units, also with commitment, modules and losses, costs are the same in the new unit of money and marginal prices the same in money per energy.", "quantifier": "For all networks, all positive factors, all points and solutions, all sets of variables that must be whole numbers.", "why_tests_cant": "Tests use one unit; a fixed number hidden in one row or cost term shows only if every row is looked at in all units.", "anchors": ["pypsa/optimization/optimize.py:create_model", "pypsa/optimization/optimize.py:define_objective", "pypsa/optimization/optimize.py:assign_duals", "pypsa/optimization/constraints.py:define_nodal_balance_constraints", "pypsa/optimization/constraints.py:39-570", "pypsa/optimization/constraints.py:815-1094", "pypsa/optimization/optimize.py:78-333"]}
{"id": "C120", "title": "Looser limits never make the optimum worse", "statement": "If limits of existing components are loosened (larger fixed capacities, wider limits per unit, larger ramp limits, wider bounds of capacities to be optimised, wider energy sums), every plan that n.optimize accepted before is still accepted, at the same costs, so the optimal costs do not rise and a feasible network stays feasible.", "quantifier": "For all networks and all sets of looser limits of generators, links, stores, storage units, lines and transformers, all plans, with or without whole-numbered variables.", "why_tests_cant": "Tests compare a few limits in one network; a limit can enter rows of other components or approximations, which shows only for particular combinations.", "anchors": ["pypsa/optimization/optimize.py:create_model", "pypsa/optimization/optimize.py:define_objective", "pypsa/optimization/optimize.py:assign_duals", "pypsa/optimization/constraints.py:define_nodal_balance_constraints", "pypsa/optimization/constraints.py:39-570", "pypsa/optimization/constraints.py:728-812", "pypsa/optimization/constraints.py:978-1094"]}
{"id": "C121", "title": "An asset that is switched off counts as if it were not there", "statement": "Setting active=False for generators, links, stores, storage units, lines or transformers has the same effect on n.optimize as removing them: the same plans for the other components are accepted, at the same costs, and the optimum is the same, whatever costs, set points, limits, energy sums or initial contents the switched-off assets have; global constraints do not count them.", "quantifier": "For all networks, all sets of assets of all classes that are switched off, all plans, with and without investment periods.", "why_tests_cant": "Tests switch off one asset of one network; each of some forty kinds of rows has its own mask, and some rows and early returns look at a class as a whole.", "anchors": ["pypsa/optimization/optimize.py:create_model", "pypsa/optimization/optimize.py:define_objective", "pypsa/optimization/optimize.py:assign_duals", "pypsa/optimization/constraints.py:define_nodal_balance_constraints", "pypsa/components/abstract.py:get_active_assets", "pypsa/optimization/variables.py:21-160", "pypsa/optimization/constraints.py:39-570", "pypsa/optimization/global_constraints.py:31-520"]}
{"id": "C122", "title": "A storage unit is the same as a store behind two links", "statement": "A storage unit of fixed capacity without spill costs can be replaced by a new bus with a store, a link that charges it, a link that discharges it and a generator for the inflow, as the documentation says: n.optimize accepts exactly the same plans for all other components, with the same charging, discharging, state of charge and spillage, at the same costs, so the optimum is the same. If the capacity is to be optimised, every plan with the storage unit is still accepted with the parts.", "quantifier": "For all networks, storage units (losses, efficiencies, inflow, cyclic or not, investment periods, switched off at times, set points of the state of charge), names of the parts and plans.", "why_tests_cant": "Tests compare the objective for one unit in one network; that two separately written sets of rows (energy balances, limits, nodal balance, costs) agree needs all of them.", "anchors": ["pypsa/optimization/optimize.py:create_model", "pypsa/optimization/optimize.py:define_objective", "pypsa/optimization/optimize.py:assign_duals", "pypsa/optimization/constraints.py:define_nodal_balance_constraints", "pypsa/optimization/constraints.py:39-392", "pypsa/optimization/constraints.py:815-975", "doc/user-guide/components.rst:191-229"]}
{"id": "C123", "title": "Which end of a line or transformer is called bus0 does not matter", "statement": "Exchanging bus0 and bus1 of lines and transformers (with the phase shift negated, the tap changer moved to the other side and set points of the flow negated) changes no result but the direction in which their flows are counted: the linear and the non-linear power flow give the same voltages and injections and the same flows from the other end, shift and outage factors change only their sign, and n.optimize has the same feasible plans, with losses and the voltage law, at the same costs.", "quantifier": "For all networks, all sets of branches turned round, all injections, plans, cycles found in the graph and whatever the linear solver returns.", "why_tests_cant": "Tests use one direction per branch; a sign or side mixed up for one kind of row or matrix entry shows only for branches turned round.", "anchors": ["pypsa/optimization/optimize.py:create_model", "pypsa/optimization/optimize.py:define_objective", "pypsa/optimization/optimize.py:assign_duals", "pypsa/optimization/constraints.py:define_nodal_balance_constraints", "pypsa/pf.py:1108-1296", "pypsa/pf.py:1426-1520", "pypsa/optimization/constraints.py:573-725", "pypsa/optimization/constraints.py:978-1025"]}
{"id": "C124", "title": "Networks that are not connected can be optimised together or one by one", "statement": "If a network consists of two networks that share no bus, n.optimize finds the optimum of each: the whole can be set up if both can, a plan is feasible exactly if its two halves are, its costs are the sum of their costs, and it is optimal exactly if both halves are.", "quantifier": "For all pairs of networks with the same snapshots, weightings and options and different names, all global constraints and voltage laws about one of the two, and all plans.", "why_tests_cant": "Tests optimise connected networks; a rule that looks at a class of components as a whole (masks, early returns, thresholds) couples networks only for particular pairs.", "anchors": ["pypsa/optimization/optimize.py:create_model", "pypsa/optimization/optimize.py:define_objective", "pypsa/optimization/optimize.py:assign_duals", "pypsa/optimization/constraints.py:define_nodal_balance_constraints", "pypsa/optimization/optimize.py:78-333", "pypsa/optimization/constraints.py:393-570", "pypsa/optimization/constraints.py:573-666"]}
{"id": "C125", "title": "Names do not matter for the optimisation", "statement": "Giving buses, generators, links, stores, storage units, lines and transformers other names changes no result of n.optimize but the names in it: the problem handed to the solver has the same rows, numbers and costs in the same order, written with the new names, and the same plans are feasible and optimal at the same costs, as long as different buses, and different assets of a class, keep different names and no bus has the empty name.", "quantifier": "For all networks, all new names, all global constraints, voltage laws and rows added by the user (written with the new names), and all plans.", "why_tests_cant": "Tests use a handful of names; rules that look at names (an empty name for a port that is not used, labels selected by prefix, names shared between classes) go wrong only for particular names.", "anchors": ["pypsa/optimization/optimize.py:create_model", "pypsa/optimization/optimize.py:define_objective", "pypsa/optimization/optimize.py:assign_duals", "pypsa/optimization/constraints.py:define_nodal_balance_constraints", "pypsa/optimization/optimize.py:78-333", "pypsa/optimization/common.py:50-71", "pypsa/optimization/constraints.py:573-666"]}
{"id": "C126", "title": "The problem handed to the solver is the documented one", "statement": "A plan satisfies all rows of the problem built by n.optimize exactly if it obeys the documented rules, written as plain arithmetic: limits of fixed, extendable and committed units, switching and minimum up and down times, ramp limits, set points, energy sums, state of charge from one snapshot in service to the next, limits and losses of lines and transformers, minimum, maximum and module size of capacities, and the balance of power at every bus. The optimum of the solver is the cheapest such plan, counted in plain system costs.", "quantifier": "For all networks, with any number of investment periods, for the first and for later windows of a rolling horizon, with exact and with linearised commitment, all global constraints, voltage laws and rows added by the user, all plans and all restrictions to whole numbers.", "why_tests_cant": "Tests compare single results; a row that is missing, or that uses the wrong variable, capacity, weighting or snapshot, changes the set of feasible plans where no test looks.", "anchors": ["pypsa/optimization/optimize.py:create_model", "pypsa/optimization/optimize.py:define_objective", "pypsa/optimization/optimize.py:assign_duals", "pypsa/optimization/constraints.py:define_nodal_balance_constraints", "pypsa/optimization/constraints.py:39-392", "pypsa/optimization/constraints.py:393-570", "pypsa/optimization/constraints.py:669-1025", "doc/user-guide/optimal-power-flow.rst:110-435"]}
{"id": "C127", "title": "The tree of a sub-network carries all injections to its slack, parallel lines become one", "statement": "The matrix left by find_tree, times any injections, gives flows that balance every bus except the slack of the tree, which takes the sum; the slack is a bus with the most branches of the tree. In a radial sub-network these are the only flows that balance, so the linear power flow gives them whatever the impedances. aggregate_multi_graph leaves one line with the summed values where lines were parallel.", "quantifier": "For all connected sub-networks, spanning trees, injections, impedances and phase shifts.", "why_tests_cant": "Paths of any length in any graph; no test calls the two functions.", "anchors": ["pypsa/pf.py:find_tree", "pypsa/pf.py:aggregate_multi_graph", "pypsa/graph.py:graph"]}
{"id": "C128", "title": "A power flow after an optimisation starts from the optimum", "statement": "After n.optimize, n.optimize.fix_optimal_dispatch (and optimize_and_run_non_linear_powerflow) hand the optimised dispatch to the power flow: at every bus the power flow injects exactly what the optimised flows, with their losses, draw there; over a sub-network only the losses are left for the slack. Without losses the linear power flow changes no dispatch and gives back the optimised flows of all lines and transformers. Controls of generators are set so that each sub-network keeps its slack generator, one other generator is PQ and all others are PV, and there is a PQ bus.", "quantifier": "For all networks, assets out of service, links with several outputs, feasible plans with and without losses, sub-networks, slack buses and earlier controls.", "why_tests_cant": "Tests check convergence for one network; that set points, signs, efficiencies and assets out of service are treated alike by two separate programs (optimisation and power flow) concerns all of them.", "anchors": ["pypsa/optimization/optimize.py:fix_optimal_dispatch", "pypsa/optimization/abstract.py:optimize_and_run_non_linear_powerflow", "pypsa/optimization/optimize.py:444-520", "pypsa/pf.py:lpf"]}
{"id": "C129", "title": "Symbols on a map show what they stand for", "statement": "In n.plot each value of a bus is a wedge whose area is that value, whatever else is at the bus; the wedges fill the circle, or with split circles positive values the upper and negative values the lower half; circles have the same scale. The arrow of a branch starts at the bus the power comes from and points to the other, whichever of them is bus0, its head grows with the root of the flow, and it has the colour of the branch; branches are drawn as rectangles of the given width. Where flows are joined by pairs of buses, one branch per pair shows the net flow, so each bus draws the same power as before; areas are scaled to the wanted part of the map.", "quantifier": "For all values (positive, negative, missing), positions, flows, directions of branches, numbers of parallel branches and names of buses.", "why_tests_cant": "Tests only check that plotting raises no error; what is drawn is not looked at.", "anchors": ["pypsa/plot/maps/static.py:468-567", "pypsa/plot/maps/static.py:692-936", "pypsa/plot/maps/static.py:1134-1154"]}
{"id": "C130", "title": "Legends of maps tell the truth", "statement": "The representative values of a legend are the given parts of the largest absolute value, rounded to the digits asked for; a label, read as number times prefix times unit, is its value up to half of the unit shown, exact if less than one, keeps the unit, and shows a number between 1 and 1000 for all values between one and 10^18 of the unit without prefix.", "quantifier": "For all values, quantiles, numbers of digits and units.", "why_tests_cant": "Numbers of every magnitude and every unit; tests look at a few labels.", "anchors": ["pypsa/plot/maps/static.py:round_to_significant_digits", "pypsa/plot/maps/static.py:scaled_legend_label", "pypsa/plot/maps/static.py:get_legend_representatives"]}
{"id": "C131", "title": "Where nothing links the snapshots, a rolling horizon finds the optimum", "statement": "In a network without storage, ramp limits, unit commitment, energy sums and capacities to be optimised, n.optimize.optimize_with_rolling_horizon, with each window solved to its optimum, records an optimum of the whole horizon: the recorded plan satisfies all rows of the problem for all snapshots and no plan costs less; any optimum of the whole horizon costs the same. In particular snapshots can be optimised one by one.", "quantifier": "For all such networks, horizons, overlaps smaller than the horizon, investment periods, losses of lines, and rows of the voltage law or of the user that concern one snapshot each; all optima of the windows.", "why_tests_cant": "Tests compare one network and one horizon; a weighting, cost, limit or load taken from a wrong snapshot of a later window goes unnoticed where the data repeat.", "anchors": ["pypsa/optimization/optimize.py:create_model", "pypsa/optimization/optimize.py:define_objective", "pypsa/optimization/optimize.py:assign_duals", "pypsa/optimization/constraints.py:define_nodal_balance_constraints", "pypsa/optimization/abstract.py:optimize_with_rolling_horizon", "pypsa/optimization/optimize.py:78-333"]}
{"id": "C132", "title": "One snapshot can stand for several equal ones", "statement": "Take a network whose snapshots are linked by capacities to be optimised and by limits on energy only, and replace snapshots at which all series have the same values by a single one whose weighting is the sum of theirs. The optimisation then finds the same costs and the same capacities: an optimum of the short network, with the operation repeated at every snapshot it stands for, is an optimum of the long one, and an optimum of the long network, with the operation averaged, is one of the short. This also holds with limits on the energy of generators, with emission budgets and with the voltage law.", "quantifier": "All networks of generators, links, lines, transformers and loads with linear costs, without commitment, ramp limits and storage; all numbers of snapshots, ways of assigning them to those that stand for them, positive weightings, investment periods, per-snapshot rows, budgets and domains of the module counts.", "why_tests_cant": "A test solves one network in two resolutions; the rule is behind every model with typical days, and compares the optima of two infinite families of problems.", "anchors": ["pypsa/optimization/optimize.py:create_model", "pypsa/optimization/optimize.py:define_objective", "pypsa/optimization/optimize.py:assign_duals", "pypsa/optimization/constraints.py:define_nodal_balance_constraints"]}
{"id": "C133", "title": "Clustering gives a lower bound of the costs", "statement": "For a network of buses, lines, generators and loads of fixed capacity: any operation that the optimisation of the original network allows becomes, summed over what each row of the clustered network stands for, an operation that the optimisation of the clustered network allows, at the same costs. So the clustered network without loop rows never costs more than the original network with whatever further rows, and can be operated wherever the original can. Where the busmap merges no two buses, so that only plants and lines at the same buses are merged, both networks have the same optimal costs and one can be operated exactly if the other can.", "quantifier": "for all networks of these classes, busmaps, distances, snapshots, series, selections of carriers and buses to be merged, snapshot weightings and further rows of the original network", "why_tests_cant": "It compares the optima of two different optimisation problems for every network and busmap; the tests of clustering look at the sizes and totals of a few clustered example networks and solve none of them.", "anchors": ["pypsa/clustering/spatial.py:171-596", "pypsa/optimization/optimize.py:78-333", "pypsa/optimization/constraints.py:63-400"]}
{"id": "C134", "title": "Busmaps made by clustering methods", "statement": "The busmaps made by k-means, hierarchical clustering and greedy modularity name exactly the buses that were asked for (all by default), with text labels. k-means fits its centres to the positions of the buses, each counted as often as the whole part of its weight, and gives each bus the label the library predicts for its position, so that buses at one place share a cluster; it fails exactly if a bus is unknown, a weight is missing or negative, or there are fewer points than clusters. Hierarchical clustering tells the library the features of the buses in their order and how many branches in service lead from one bus to another. Greedy modularity tells the library a graph that joins two buses exactly if a line joins them, and puts two buses in one cluster exactly if they are in one community. The clustered network has the labels as its buses.", "quantifier": "all networks, coordinates, weights, selections of buses, features, lines, branches, and all behaviours of the clustering libraries (labels per row; communities that divide the buses)", "why_tests_cant": "tests run the methods on one example network and compare the number of clusters; what the library is told for arbitrary selections, weights and branches is not observed", "anchors": ["pypsa/clustering/spatial.py:603-950"]}
{"id": "C135", "title": "Congestion", "statement": "At an optimum without losses, the marginal prices at the ends of lines and transformers behave as in a market. At every snapshot the lines and transformers together earn no less than nothing when they buy what they carry at one end and sell it at the other, although a single one may carry power from a dear to a cheap bus; what loads pay is what generators, stores, storage units and links are paid plus these earnings. If no branch of a sub-network is at its rating, all its connected buses have one price. A branch on no cycle carries power from the cheap to the dear end, and if it is not at its rating both ends have the same price.", "quantifier": "all networks with linear costs and positive snapshot weightings, every optimum with its duals, every snapshot, any further constraints that do not mention flows, any cycle basis", "why_tests_cant": "tests compare prices on a few small networks; a sum over all branches at every optimum of every network cannot be sampled", "anchors": ["pypsa/optimization/constraints.py:573-725", "pypsa/optimization/optimize.py:390-450"]}
{"id": "C136", "title": "Charts of statistics show the statistic", "statement": "A chart asks the statistic for the columns on its axes, in its colours and in its facets, and draws at each place the statistic for these labels and nothing anywhere else, whether bars, stacked areas, lines or points and however the signs are mixed. Parameters that are given are used, others get the default for the statistic and kind of chart; a parameter the statistic does not know is refused. Snapshots can be shown for every statistic that varies over time. Maps draw the legend that belongs to what they draw.", "quantifier": "all statistics, kinds of charts, columns, facets and tables of values; every combination of given and omitted parameters", "why_tests_cant": "a test looks at a few figures for errors, never at the numbers drawn; the combinations of parameters and columns are unbounded", "anchors": ["pypsa/plot/statistics/schema.py:150-249", "pypsa/plot/statistics/charts.py:37-375", "pypsa/plot/statistics/charts.py:592-638", "pypsa/plot/statistics/plotter.py:54-278", "pypsa/plot/statistics/maps.py:221-278"]}
{"id": "C137", "title": "An asset and its shares", "statement": "Replacing a generator, link, store or storage unit without commitment, modules and quadratic costs by several that together have its capacities, set points, inflows, initial level and limits on the sum, each in the same proportion, changes nothing in the optimum: the costs are the same, from an optimum with the whole one gets an optimum in which each share does its part, and from an optimum with the shares, however they divide the work among them, one gets an optimum in which the whole does what they do together. Further rows then speak of the sum over the shares.", "quantifier": "all networks, all sets of assets divided at once, all numbers of shares and positive proportions, all further linear rows, all restrictions on the other variables, one or several investment periods, rolling windows", "why_tests_cant": "a test divides one asset in one network in two and compares two runs of a solver; which of the many equal optima the solver reports is up to the solver", "anchors": ["pypsa/optimization/constraints.py:39-131", "pypsa/optimization/constraints.py:363-668", "pypsa/optimization/constraints.py:783-977", "pypsa/optimization/constraints.py:1028-1082", "pypsa/optimization/optimize.py:100-300", "pypsa/optimization/variables.py:21-145"]}
{"id": "C138", "title": "A limit on emissions acts like a price on emissions", "statement": "What is optimal under a primary energy limit is also optimal without it if every generator pays, per unit of energy, the dual of the limit times its emissions; the marginal prices at all buses are the same, the price is not negative and zero unless the limit is reached, and the costs differ by the price times the limit. Conversely, what is optimal with a price is optimal under the limit it reaches. A higher price never means more emissions nor a cheaper system, and a tighter limit never has a lower price. If snapshots or periods count differently in the limit and in the costs, what is paid changes by the ratio of the weightings.", "quantifier": "all networks with linear costs and without storage that carries emissions over the horizon, all limits for all or one investment period, all other rows, all optima and duals", "why_tests_cant": "a test compares a few runs of a solver; that the dual is the right price is a statement about all feasible points", "anchors": ["pypsa/optimization/global_constraints.py:241-316", "pypsa/optimization/optimize.py:78-209", "pypsa/optimization/optimize.py:212-330"]}
{"id": "C139", "title": "The tables of the sub-networks split the tables of the network", "statement": "After the topology is determined, every bus, every one-port at a bus of the network and every line and transformer in service is a row of the tables of one sub-network and of no other; the tables of all sub-networks together are the tables of the network, each in its order. One-ports are where their bus is, branches in service where both their ends are, and two buses are together iff branches in service join them. The series of a sub-network have the columns of its rows with the network's values. branches and branches_i agree with the tables. The tables cannot be replaced through the sub-network and follow the network. A walk over the classes gives those that have rows in the sub-network.", "quantifier": "all networks, all tables and series, all investment periods, all orders of the classes", "why_tests_cant": "power flow writes its results sub-network by sub-network; that no component is left out or written twice depends on all of the network's tables", "anchors": ["pypsa/networks.py:1701-1771", "pypsa/networks.py:1906-1964", "pypsa/networks.py:2080-2111", "pypsa/components/abstract.py:725-829"]}
{"id": "C140", "title": "What it means to make units committable", "statement": "If generators and links of fixed capacity that are in service throughout and need not stand still at first are made committable, with whole statuses, the optimum costs at most what it costs without plus the stand-by costs of all snapshots and one start-up of each unit that was off before. If they may stand still anyway (p_min_pu at most 0, p_max_pu at least 0) and neither start nor stop faster than they ramp, and no cost is negative, the optimum is not cheaper than without. If moreover keeping them on costs nothing, an optimum without gives one with the same dispatch, flows, capacities and costs, and one with commitment is one without.", "quantifier": "all networks optimised in one run, all selections of generators and links, all other constraints and whole-number conditions that do not speak of the commitment of the selected units", "why_tests_cant": "a test compares two solved problems; the claim compares the sets of all feasible plans of both", "anchors": ["pypsa/optimization/constraints.py:178-392", "pypsa/optimization/constraints.py:393-570", "pypsa/optimization/variables.py:76-145", "pypsa/optimization/optimize.py:78-333"]}
{"id": "C141", "title": "What is dearer is not used more, and where more is needed the price is not lower", "statement": "If costs of a network rise (marginal_cost, marginal_cost_storage, spill_cost, stand_by_cost, capital_cost, each by asset and, where it varies, by snapshot), the optimal costs rise by at most what the rise costs the old plan and at least what it costs the new plan; so an asset that is dearer in a snapshot does not deliver more in it, a group of assets dearer throughout does not deliver more energy, and an asset dearer to build is not built larger, whatever else changes. Part of a rise costs at least that part of the whole. If the loads change, the optimal costs change by at least the change valued at the old prices of the buses and at most the change valued at the new ones; so more load at one bus in one snapshot does not lower the price there, and loads between two others cost at most the costs in between.", "quantifier": "all networks, all rises and falls of costs, all changes of loads, all further constraints and whole-number conditions (prices: linear problems)", "why_tests_cant": "a test compares two solved problems; the claim is about every optimum of every pair of problems, also when the optimum is not unique", "anchors": ["pypsa/optimization/optimize.py:78-333", "pypsa/optimization/constraints.py:571-711", "pypsa/optimization/optimize.py:412-466"]}
{"id": "C142", "title": "The linear power flow is the first-order picture of the power flow", "statement": "In a network without resistances and conductances, without phase shifts and with all voltage set points 1, the first Newton step of n.pf() from the flat start arrives at exactly the angles of n.lpf(), whatever tap ratios, charging, shunt susceptances and reactive loads; at the same angles and voltages of 1 the active flows of the two over a branch differ by at most the cube of the angle difference over six times the reactance. If such a network (now with any phase shifts and voltages) has no cycles, the active flows reported by a converged n.pf() are those of n.lpf() up to the tolerance times the number of buses.", "quantifier": "all networks without losses, all tap ratios, shunts, loads, starting points and tolerances; all radial networks", "why_tests_cant": "tests compare the two power flows on a few small networks with loose tolerances", "anchors": ["pypsa/pf.py:990-1025", "pypsa/pf.py:966-986", "pypsa/pf.py:1108-1162", "pypsa/pf.py:1203-1295", "pypsa/pf.py:275-317", "pypsa/pf.py:519-607"]}
{"id": "C143", "title": "Investment periods only do what their links and weights say", "statement": "A network with a single investment period in which the same assets are in service has the optima it has without investment periods, at costs multiplied by the objective weight of the period. Multiplying the objective weights of all investment periods by the same positive number does not change the optima and multiplies their costs. Where nothing links the periods (no capacities to be optimised, no commitment, no ramp limit across a boundary, no limits on sums over periods, storages with accounts per period) a plan is optimal exactly if it is optimal in every period on its own, so that no choice of positive objective weights changes the optima.", "quantifier": "all networks with linear or quadratic costs, all numbers and lengths of periods, all positive weights, all further rows within periods, all domains of variables that can be exchanged period by period", "why_tests_cant": "tests solve a few multi-period networks with one set of weights each; that no weights and no network break this cannot be sampled", "anchors": ["pypsa/optimization/optimize.py:75-209", "pypsa/optimization/constraints.py:393-560", "pypsa/optimization/constraints.py:815-1000", "pypsa/networks.py:1095-1130"]}
{"id": "C144", "title": "It does not matter where the year begins, nor, without storage, how snapshots are ordered", "statement": "Where neither commitment nor ramp limits link the snapshots and every storage is cyclic, a network whose snapshots (with all series and weightings) are rotated, so that the year begins at another snapshot, has exactly the rotated optima, at the same costs and with the same capacities. Where there are no storages at all, this holds for every order of the snapshots.", "quantifier": "all networks with linear costs, all numbers of snapshots, all rotations (all orders without storage), all weightings, all further rows, all domains for capacities", "why_tests_cant": "tests optimise a network with its snapshots in one order; that no order and no start changes costs or capacities cannot be sampled", "anchors": ["pypsa/optimization/constraints.py:1008-1260", "pypsa/optimization/constraints.py:393-560", "pypsa/optimization/optimize.py:75-209"]}
{"id": "C145", "title": "Losses are those of the flow where power has a value", "statement": "With transmission losses, at an optimum with the prices that are reported, wherever the prices at the two ends of a line or transformer have a positive mean its losses lie on the tangents of the losses of its flow: they are never above them and below them by no more than the distance of two tangents decides. Where the mean is negative the losses are as large as the rows allow, whatever flows. Along a branch off its rating, which no further row is about, the price rises by twice the resistance times the flow (rounded to the points of the tangents) of the price half-way. What loads pay is what the other assets are paid and what branches earn after paying for their losses, and branches together earn no less than nothing.", "quantifier": "all networks with linear costs and losses, all numbers of tangents, all positive weightings, all optima with multipliers, all snapshots, all branches, all further rows that do not speak of losses", "why_tests_cant": "tests compare the losses of one optimised network with a reference; that they are tight, and what they do to prices and payments, follows from optimality for every network and cannot be sampled", "anchors": ["pypsa/optimization/constraints.py:39-129", "pypsa/optimization/constraints.py:573-700", "pypsa/optimization/constraints.py:978-1020", "pypsa/optimization/optimize.py:336-420"]}
{"id": "C146", "title": "Different components that stand for the same plant give the same optimum", "statement": "Rewriting a network with other components as the documentation suggests does not change what is optimal. Without losses, a line that no voltage law or further constraint is about is the same as a link of efficiency 1 that can be used both ways. A load is the same as a generator of its sign whose p_set is the course of the load. A generator with e_sum_max is the same as a store that is full of fuel, with a link of the efficiency of the plant in which capacity, limits on capacity, module size, set points, marginal and capital costs are converted to fuel (commitment and ramp limits included). Every plan of one network has one of the other that fulfils the rules exactly if it does, at the same costs; an optimum of one is an optimum of the other.", "quantifier": "all networks with linear costs, all lines, loads and generators, all efficiencies, with and without commitment, ramp limits, modules, rolling horizon and investment periods, all further constraints about other assets; generators and stores weighted alike, and the new component not changing whether ramp limits of the others count", "why_tests_cant": "tests compare one network with its rewritten form; that no data make the two differ cannot be sampled", "anchors": ["pypsa/optimization/constraints.py:39-129", "pypsa/optimization/constraints.py:573-700", "pypsa/optimization/constraints.py:1008-1260", "pypsa/optimization/optimize.py:75-333"]}
{"id": "C147", "title": "Every way to a class of components leads to the same tables", "statement": "A class of components has two names (\"Generator\", \"generators\") and many ways to its tables: n.generators, n.generators_t, n.components[...], n.components.generators, n.static(...), n.dynamic(...), as_components(n, ...), a list of names. After any sequence of assignments to tables through any of these ways, all ways show the last table assigned to that class, tables of other classes are as before, and entries added under other names do no harm. A list of names gives the objects one by one or an error. Objects of another network are refused. n.component_attrs has the attributes of each class under its name. What is assigned to n.components under a name is found under that name (not met for names of classes).", "quantifier": "all networks, all tables, all sequences of assignments, all ways and both names of all fifteen classes", "why_tests_cant": "tests read what they have written in a few combinations; that no sequence of assignments through mixed ways is lost or hits another class needs an invariant", "anchors": ["pypsa/definitions/components.py:63-205", "pypsa/definitions/structures.py:14-61", "pypsa/networks.py:488-627", "pypsa/components/common.py:14-46", "pypsa/components/abstract.py:508-530"]}
{"id": "C148", "title": "Calculated lengths of lines are great-circle distances between their buses", "statement": "n.components.lines.calculate_line_length() has one value for each line, in the order of lines: the distance in metres on a sphere of 6371 km between the coordinates of the two buses, missing if a bus does not exist or has no coordinates. Lengths do not depend on the order of the ends, a detour is never shorter, and no length exceeds half the circumference. The result can be assigned to a column of n.lines (not met: it is labelled by position, all values are lost).", "quantifier": "all buses with or without coordinates, all lines", "why_tests_cant": "tests compare a few lengths with recorded numbers; the geometry and the handling of missing data for all coordinates cannot be sampled", "anchors": ["pypsa/components/components.py:145-193", "pypsa/geo.py:24-58"]}
{"id": "C149", "title": "Near-optimal alternatives bracket what can be had within the budget", "statement": "On a network that has been optimised, n.optimize.optimize_mga with sense min and max gives the least and the greatest amount (for example of a capacity) among all plans that cost at most 1 + slack times the optimum: no plan within the budget has less or more. Without whole numbers, each amount in between can be had within the budget. More slack never narrows the range, and what more slack gains gets less and less. Without slack the alternatives are the optima. Any number of runs on one network, one after another, stay within the slack (not met: each run takes the costs of the plan left by the run before, so that slacks multiply; proved with the product).", "quantifier": "all networks with linear costs whose links cost nothing to operate (C64), all weights, slacks and senses, all further constraints, all sequences of runs", "why_tests_cant": "tests run one alternative on one network; that no plan within the budget lies outside the range, and what many runs add up to, cannot be sampled", "anchors": ["pypsa/optimization/abstract.py:513-653"]}
{"id": "C150", "title": "Resampling snapshots to means gives a lower bound of the costs", "statement": "If blocks of consecutive snapshots are replaced by one snapshot each, with the sum of their weightings, means of loads, availability, inflow and set points (as resample_timeseries takes them) and the levels of storage at the end of a block, then the optimum is not dearer: every plan of the original network has a plan of the resampled one with the same capacities and the same costs. So if the resampled network has no plan, neither has the original one. This holds with extendable capacities, storage, losses of lines, limits on emissions and other budgets, provided that costs, efficiencies and what is in service are the same within a block, and that there are no ramp limits, no commitment and no standing losses.", "quantifier": "all networks, all block lengths and numbers of blocks, all time series of loads, availability and inflow, all further rows of snapshots and budgets", "why_tests_cant": "tests compare two solved runs of one network; that no network gets dearer by resampling, with storage across blocks, cannot be sampled", "anchors": ["pypsa/common.py:614-652", "pypsa/optimization/optimize.py:75-333", "pypsa/optimization/constraints.py:573-1260"]}
{"id": "C151", "title": "Each further step of a limit costs at least as much as the step before", "statement": "If the right-hand sides of limits (as on emissions, budgets or growth) and the loads change linearly with a parameter, the costs of the optimum are convex in it: between two values they lie on or below the chord, so each further reduction of emissions costs, for a unit, at least as much as the one before. If costs change linearly with a parameter (as by a carbon price or a learning curve of capital costs), the costs of the optimum are concave in it. The first holds where nothing has to be whole (no commitment, no module sizes), the second always.", "quantifier": "all networks with linear costs, all changes of loads and of right-hand sides, all changes of the cost columns, all values of the parameter, all further constraints", "why_tests_cant": "tests solve a few points of one curve; that no curve of any network bends the other way cannot be sampled", "anchors": ["pypsa/optimization/optimize.py:78-333", "pypsa/optimization/constraints.py:573-700", "pypsa/optimization/global_constraints.py:241-340"]}
{"id": "C152", "title": "Maps show each branch where it is, in its own style, whatever was drawn before", "statement": "A map of a network shows every branch of the chosen classes once, from the place of its first bus to the place of its second bus, in the colour and width that are given for it; a map that is asked for is refused only if a branch has no colour or width. The view of a map depends on the arguments of its own call and on its own network, not on what was drawn before, and a figure does not change when others are drawn. Buses are shown at their coordinates unless a layout is asked for, in the coordinate system that is given or that of the network, and what a figure showed before is still there when another map is added to it.", "quantifier": "all networks, all layouts, all colours and widths as single values or per branch, all sequences of calls, all coordinate systems", "why_tests_cant": "tests draw one network and look whether there is an error; where each line lies, and how one call affects another, is not looked at", "anchors": ["pypsa/plot/maps/interactive.py:62-328", "pypsa/plot/maps/interactive.py:339-520", "pypsa/plot/maps/common.py:70-125", "pypsa/plot/maps/static.py:120-250", "pypsa/plot/maps/static.py:560-690"]}
{"id": "C153", "title": "Places stay where they are when the coordinate system changes", "statement": "Converting a network to another coordinate reference system leaves every bus and every shape at its place on earth, and converting back gives the coordinates that were there before. The system of a network can be set. Shapes are always in the system that the network names, whatever was done with it, and geometries of another system are refused. Files, slices and copies keep the system and the coordinates.", "quantifier": "all networks, all coordinate reference systems with any order of axes, all sequences of conversions, setting the system, adding buses and shapes, slices, copies and files", "why_tests_cant": "tests convert one network once and compare the name of the system; where the buses are afterwards is not looked at, nor are sequences of such calls", "anchors": ["pypsa/networks.py:644-685", "pypsa/networks.py:1532-1589", "pypsa/networks.py:1623-1674", "pypsa/io.py:765-768", "pypsa/io.py:1205-1209", "pypsa/io.py:1466-1497"]}
{"id": "C154", "title": "An optimum exists whenever it can, and every optimum has prices", "statement": "For a network whose costs are linear, exactly one of three holds: the loads cannot be served, and there are prices at which nothing the assets can do is worth as much as the loads; or costs fall without limit; or there is a plan with least costs. If no cost and no lower limit is negative, one plan that serves the loads is enough for an optimum. Every plan with least costs (statuses and modules taken as continuous) has nodal prices and duals of all constraints that satisfy the optimality conditions, and only such plans have.", "quantifier": "all networks with linear costs, all further linear constraints, all snapshots and investment periods; over any ordered field", "why_tests_cant": "tests solve instances for which the answer is known; that no instance is without optimum, prices or proof of infeasibility cannot be sampled", "anchors": ["pypsa/optimization/optimize.py:75-333", "pypsa/optimization/optimize.py:450-560", "pypsa/optimization/constraints.py:573-1260"]}
{"id": "C155", "title": "Least costs and greatest profit of each asset are the same", "statement": "A plan that serves the loads within all limits has least system costs exactly if there are nodal prices at which each generator, link, store, storage unit, line and transformer on its own, within its own limits, could not earn more. Such prices fit every plan with least costs, so it does not matter for them which optimum the solver returns. With units that are on or off this fails: a plan may have least costs although no prices support it.", "quantifier": "all networks with linear costs and without constraints that couple assets other than the balance of buses, all snapshots and periods, all courses of each asset within its limits", "why_tests_cant": "tests compare the profit of single assets at one optimum; that no other course of any asset earns more, and that prices prove optimality, is a statement about all courses", "anchors": ["pypsa/optimization/optimize.py:75-333", "pypsa/optimization/constraints.py:573-1260", "pypsa/optimization/optimize.py:509-560"]}
{"id": "C156", "title": "Unit commitment has an optimum as soon as there is a plan, and prices once switching is fixed", "statement": "If a network with linear costs has a plan in which every status, start-up and shut-down is on or off, and the costs of such plans are limited below (as they are if no cost and no lower limit is negative), then one of these plans has least costs. With the switching of such an optimum fixed there are nodal prices at which no other way to run the assets with the same switching earns more.", "quantifier": "all networks with linear costs, any number of committable generators and links, all snapshots and investment periods, all further linear constraints; over any ordered field", "why_tests_cant": "tests solve small commitment problems; that no network with a plan is left without an optimum cannot be sampled", "anchors": ["pypsa/optimization/variables.py:42-85", "pypsa/optimization/constraints.py:148-400", "pypsa/optimization/optimize.py:75-333"]}
{"id": "C157", "title": "With load shedding there is always an optimum, and its cost caps prices", "statement": "After n.optimize.add_load_shedding() a network whose assets may stand still, whose costs are not negative and whose loads are not negative and not above what can be shed has an optimum with prices, also with unit commitment, and it costs no more than to shed all loads. However assets are run within their rules, shedding what is missing makes it a plan. The price at a bus is at most marginal_cost / sign as long as less is shed there than can be, and exactly that while something is shed. A plan of the network without shedding stays optimal exactly if it has prices that are not above this.", "quantifier": "all networks with linear costs, all choices of buses, signs, costs and limits of shedding (one value or one per bus), all loads and snapshots, all further constraints that do not count shedding", "why_tests_cant": "tests solve one network with shedding; that none is left without optimum, and how high prices can be, is a statement about all", "anchors": ["pypsa/optimization/optimize.py:748-791", "pypsa/optimization/optimize.py:75-333", "pypsa/optimization/constraints.py:573-700"]}
{"id": "C158", "title": "Prices with quadratic costs are costs of one unit more, and show the optimum", "statement": "With marginal_cost_quadratic the objective is the weighted sum of linear and quadratic costs of active assets, and a plan has least costs exactly if prices exist at which no asset alone could earn more, quadratic costs included. The bus price of the solution is marginal_cost + 2 * marginal_cost_quadratic * p for each generator that runs between its limits. Other loads cost at least what they add at these prices. All optima have the same output wherever quadratic costs are positive.", "quantifier": "all networks whose quadratic costs and weightings are not negative, all snapshots and investment periods, all further linear constraints; optima also with integer variables for the objective", "why_tests_cant": "tests compare one dispatch of two generators with quadratic costs; that prices exist for all optima, support them and leave one output only, is a statement about all plans", "anchors": ["pypsa/optimization/optimize.py:138-153", "pypsa/optimization/optimize.py:75-333", "pypsa/optimization/constraints.py:573-700"]}
{"id": "C159", "title": "Groupers mean the same whichever way they are asked for", "statement": "In the argument groupby of the statistics a documented grouper (carrier, bus_carrier, name, bus, country, location, unit) labels each component with its own attribute or that of the bus at the port, a list gives one level for each key in order, and any other string is a column of the class or refused. A grouper registered under a name is found under it, the last one counts, and other keys do not notice. groupers[key], the function groupers.key, the old functions get_... and the key itself give the same result.", "quantifier": "all networks and classes, all histories of registered groupers, all ports, with and without nice names, all keys and lists of keys", "why_tests_cant": "tests try some of the groupers in some of the ways to pass them; which way of asking for which grouper works depends on the parameters of each, and own groupers can be registered in any order", "anchors": ["pypsa/statistics/grouping.py:25-366", "pypsa/statistics/grouping.py:389-535", "pypsa/statistics/abstract.py:136-156"]}
{"id": "C160", "title": "Quadratic costs leave an optimum", "statement": "With marginal_cost_quadratic that is not negative, an optimisation with n.optimize either has no plan that obeys the constraints, or plans as cheap as one likes, or an optimum with marginal prices. If nothing is paid for building or running plants, one plan is enough for an optimum. An equilibrium (a plan that obeys the constraints and prices at which no plant on its own could earn more) exists exactly if there is a plan and costs are limited below.", "quantifier": "all networks without binary commitment, all numbers of snapshots, extendable or not, with storage, losses and further linear constraints", "why_tests_cant": "that a minimum is attained on an unbounded set of real numbers cannot be seen from runs, where solvers stop at a tolerance", "anchors": ["pypsa/optimization/optimize.py:136-151", "pypsa/optimization/optimize.py:208-325"]}
{"id": "C161", "title": "The unit of an energy balance is that of its buses", "statement": "n.statistics.energy_balance(bus_carrier=...) works for every selection of bus carriers that the other statistics accept. The unit in its attrs is the unit of every bus whose carrier is selected, so of everything that is summed up, and it is carrier dependent exactly if these buses have different units or nothing is selected.", "quantifier": "all networks, all strings and lists of bus carriers, all components and ports", "why_tests_cant": "tests ask for one carrier of one example network; selections may be patterns, lists with carriers not in use, or buses with several units", "anchors": ["pypsa/descriptors.py:483-515", "pypsa/statistics/expressions.py:1755", "pypsa/statistics/abstract.py:323-351"]}
{"id": "C162", "title": "The columns of a table do not depend on the order of calls or the run", "statement": "After any sequence of n.add and n.remove the table of a class has each standard attribute once, first and in the order of the schema, whatever columns were given in which order, then the own columns. An own column stays as long as a component of the class does. Running the same program again gives the same table, so the same exported file and equal networks.", "quantifier": "all schemas, all sequences of adding (with or without overwriting) and removing, all own columns, all orders in which a set may be listed", "why_tests_cant": "the order of own columns follows the hash seed of the process; a test runs in one process and compares sets or standard columns", "anchors": ["pypsa/io.py:1306-1331", "pypsa/io.py:1399-1498", "pypsa/common.py:249-262"]}
{"id": "C163", "title": "Weightings fit the snapshots and the investment periods", "statement": "After any sequence of set_snapshots, set_investment_periods and assignments to snapshot_weightings and investment_period_weightings, refused calls included, each snapshot and each investment period has exactly one row of weightings, with the columns the optimisation asks for. New snapshots get the default weighting and new periods weigh one, others keep theirs, and with the first periods each snapshot weighs in each period what it did. With weightings_from_timedelta a snapshot weighs the hours until the next, the last as many as the one before.", "quantifier": "all sequences of calls, all snapshots and periods, all assigned Series and DataFrames", "why_tests_cant": "tests set snapshots or periods once and in the usual order; what is left in the tables after mixed sequences is not looked at", "anchors": ["pypsa/networks.py:691-764", "pypsa/networks.py:1016-1123"]}
{"id": "C164", "title": "With quadratic costs output and prices react to costs and loads", "statement": "Also with marginal_cost_quadratic: if marginal costs rise, the use of what became dearer, weighted with the rise, falls by at least twice the quadratic costs of the change of output, so it falls strictly unless every asset with a quadratic cost goes on as before. The least costs are concave in the costs and convex in the loads. More load at one bus in one snapshot does not lower the marginal price there, and raises it strictly unless those assets go on as before. With load shedding the marginal price at a bus is at most marginal_cost / sign of shedding while not all is shed, at least that while something is shed, and an optimum exists whenever shedding can make up for what is missing.", "quantifier": "all networks of the optimisation with non-negative quadratic costs, all rises of costs, all loads, all optimal solutions", "why_tests_cant": "tests solve one small network; how two optima differ for every change of costs and loads is not looked at", "anchors": ["pypsa/optimization/optimize.py:136-151", "pypsa/optimization/optimize.py:464-470", "pypsa/optimization/optimize.py:748-791"]}
{"id": "C165", "title": "Arrows on a map show the flows asked for, and all branches stay on it", "statement": "n.plot with line_flow, link_flow or transformer_flow draws the same branches as without. The arrow of a branch is for its flow in the given snapshot, for its flows aggregated by the given function or name of one, for the given number, or for its value in the given Series; with auto_scale_branches this is multiplied by the width and divided by the number of branches plus a hundred. Each branch has at most one arrow, and Series with names of no branch are refused.", "quantifier": "all tables of branches, snapshots, flows stored or not, all arguments for flows, widths, colors and alpha", "why_tests_cant": "tests only check that plotting solved example networks raises no exception; what is drawn is not compared with what was asked for", "anchors": ["pypsa/plot/maps/static.py:569-612", "pypsa/plot/maps/static.py:1239-1296"]}
{"id": "C166", "title": "Merging assets keeps lone ones as they are and groups as a whole", "statement": "Clustering with aggregation of one-ports: an asset that is the only one of its carrier in its cluster keeps all its numbers, and a merged asset stands for the group, also in what the group has in all (admittance of shunts, initial energy) and in its quadratic costs, which are not above those of the members for the same output.", "quantifier": "all networks, busmaps, assets and columns, all ways to share the output", "why_tests_cant": "tests compare totals of capacities on one example; columns without a rule and groups of one are not looked at", "anchors": ["pypsa/clustering/spatial.py:28-55", "pypsa/clustering/spatial.py:108-139", "pypsa/clustering/spatial.py:171-291"]}
