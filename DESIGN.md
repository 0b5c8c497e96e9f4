# Formal model of PyPSA in Lean 4 - design

## Trusted base

* Lean 4.33.0 kernel; Mathlib as installed (imported one module at a time).
* Axioms: every property theorem depends at most on `propext`,
  `Classical.choice`, `Quot.sound`. No own axioms, no `sorry`, no
  `native_decide`, no `bv_decide`. (`lean/Verif/Axioms.lean` prints them.)
* The reading of `/repo` (nothing was run). Every definition cites the file and
  lines it models. The semantics of pandas / xarray / linopy / networkx / scipy
  operations used by the code are taken from their documentation; the ones the
  model relies on are listed under "Library assumptions".
* Numbers: floats are modelled as exact numbers (`Rat`, or an arbitrary
  field / linear ordered field), `NaN` as `Option.none` and `inf` by `Option`
  where the code's branches look at them. Rounding errors are not modelled.

## Library assumptions

* `DataFrame.reindex(idx, fill_value=d)` keeps the values of labels present and
  puts `d` for the others; `.drop(labels)` raises `KeyError` if a label is
  missing and otherwise removes every row with that label; `pd.concat` appends
  rows; boolean / label indexing with `.loc` selects in the given order.
* `groupby(keys).sum()` / `.agg(f)` returns one row per distinct key and applies
  `f` to the values having that key; rows whose key is NaN are dropped.
* `Series` arithmetic aligns on labels and gives NaN where a label is missing on
  one side (unless `fill_value`).
* linopy: `m.add_constraints(lhs, sign, rhs, mask=...)` adds one row for every
  cell where `mask` is true, and a solution satisfies the model iff it satisfies
  every added row and every variable bound; masked variables contribute nothing;
  `rolling(k).sum()` sums over the last `k` positions that exist.
* networkx `cycle_basis` / `minimum_spanning_tree` and scipy
  `connected_components`, sparse linear solvers: not verified; where a property
  needs their contract it is stated as an explicit hypothesis or, where possible,
  replaced by a verified algorithm with the same contract (stated at the place).

## What is modelled, per property

The Lean files live in `lean/Verif/<Area>/`. In each area `Model.lean` holds the
function-by-function model with citations, `Spec.lean` (or the head of the
property file) holds the independent specification, `Props.lean` the property
theorems, each with a non-vacuity `example`.

| Id | Plan |
|----|------|
| C01, C02 | option tree as nested association lists; context manager as a function from an arbitrary body `Tree -> Tree x exit`; proof by induction over the pair list. Duplicate names break C01: witness plus `_partial`. |
| C03-C11 | one network state machine (`Network`): component tables with static rows and dynamic columns, snapshots, investment periods; operations return a state and possibly an error; invariants by induction over operation lists; frame theorems per operation. |
| C12-C15 | slicing, copy, merge, equals over the same network type. |
| C16-C18 | export to a table store and import from it; effective values before/after; naming scheme of netCDF variables as strings. |
| C19 | type registry keyed the way the code keys it. |
| C20-C24 | graph model over branch lists; component labelling by a verified merge algorithm; incidence/adjacency as integer matrices; cycle columns. |
| C25-C30 | matrices over a field: B, H, LPF solution, PTDF, BODF; linear algebra proofs. |
| C31-C35, C82, C83 | Newton loop with arbitrary residual; admittance matrix and power mismatch over the complex numbers, Jacobian by calculus; wye-delta algebra; slack distribution; standard types. |
| C36, C37 | interval logic; bound selection per component. |
| C38, C39, C57 | bilinear expressions over component lists; balance as a sum over components. |
| C40-C45, C84-C86 | constraint generators for one unit over a finite horizon; every feasible sequence satisfies the temporal specification (induction over time). |
| C46, C47 | storage recursion, telescoping by induction; period/activity masks. |
| C48 | tangent algebra over an ordered field. |
| C49 | graph + linear algebra. |
| C50-C56 | constraint generators as predicates on solutions versus summation specifications. |
| C58-C64 | accessor functions on top. |
| C65-C69 | grouping operations over lists; multigraph contraction; stub removal loop. |
| C70, C71 | check functions returning (logged, raised) results. |
| C72-C77 | aggregation of series with weights; grouping sums. |
| C78-C81 | small functions. |
| C87-C92 | solutions of the optimisation as predicates, what is written back as functions of them. |
| C93-C98 | statistics as grouped sums over rows. |
| C99 | paths in the clustered multigraph; `cluster_voltage` adds that a cluster has the highest voltage of its buses. |
| C100 | formatting of a table of attributes row by row. |
| C101, C102 | the links of several networks with one shared table of attributes; invariant over histories. |
| C103, C104 | the import of a PYPOWER case and the per-unit values computed from it; PYPOWER's branch model written down separately, compared at all voltages. |
| C105, C106 | merging of buses by switches against the equivalence generated by the switches; impedances by data against impedances by type. |
| C107-C111 | `create_model` as a whole with the answer of the solver (primal and dual), `Opt/Whole.lean`; revenues at the prices that `assign_duals` writes against costs. |
| C112 | the loop of `assign_duals` over all constraints, `Opt/Duals.lean`; found values against the duals of the limits. |
| C113 | what `n.pf()` writes for components, over all sub-networks, `PowerFlow/Results.lean`; sums of recorded values per bus, frame argument for the loop over sub-networks. Partial: see findings. |
| C114 | two whole problems (`Opt/Whole.lean`), one with more assets that may stand still, `Opt/ExtendProps.lean`; the point with these assets at zero is feasible at the same costs. Partial: ramp limits that are all 1, see findings. |
| C115 | two whole problems with all lists permuted, `Opt/OrderProps.lean`; errors, rows, objective and nodal balance compared. |
| C116 | whole problems of all windows (`Opt/RollingWhole.lean`), each as the window sees the network, with records of all variables; `Opt/RollingWholeProps.lean` shows by induction that each snapshot is fixed by one window and that all rows of the whole horizon hold. All windows are solved. Partial: see findings for capacities to be optimised, and C63 for cyclic and losing storage; commitment and sums over snapshots are left out. `cost_snapshots` and `window_costs` add that the costs of a window are those of its own snapshots, with the weightings and costs of these snapshots, plus capital costs. |
| C117 | `optimization/expressions.py` function by function (`Stats/LinExpr.lean`), an expression given by its value at a point, over the aggregation of C95; tables as recorded by `assign_solution`. `Stats/LinExprProps.lean` shows equality of the aggregated tables for any point, grouping, ports, filters and aggregation over time. Assumed of linopy: addition joins all labels of both operands, variables out of service count zero. Snapshots are not multi-indexed (there `LinearExpression` would need a method `multiply`); losses of lines are left out. Partial: see findings. |
| C118 | `IO/Formats.lean`: sheets of a workbook and keys of an HDF5 store as texts, writes and removals in the order of `_export_to_exporter`, tables as opaque values; columns of HDF5 by position; cells of meta data in Excel; attributes of the network per format; an export into a workbook on top of the model of C16. `IO/FormatsProps.lean`: no two tables share a name, every table comes back, series not known to the network stay; partial because older sheets, unnamed networks and texts in meta data are not kept. Left out: names of sheets over 31 characters, engines, `json` (a parameter). |
| C119 | Over the whole problem of C107: `Opt/UnitsProps.lean` gives each attribute its documented unit (`Units.net`, `Units.var`) and shows row by row that the problem in new units is the old one with every row multiplied by a positive number. Rows from outside are assumed to be converted. What is kept from one snapshot to the next is a number per snapshot, so a standing loss per new hour is not computed. |
| C120 | Over the whole problem of C107: `Opt/LoosenProps.lean` replaces limits of assets (`Limits.net`) by looser ones (`Looser`, stated per attribute) and shows asset by asset that the new rows follow from the old ones and that balance and objective are unchanged. Partial: ramp limits that are all 1, ratings of passive branches with losses, see findings; limits of units with linearised commitment and capacities of committed units are kept. |
| C121 | Over the whole problem of C107 and the global constraints: `Opt/OffProps.lean` compares a network that has switched-off assets of every class with the network without them; feasible points, costs and optima are the same (`off_partial`, `off_optimum_partial`), capacity limits and transmission limits of a period do not see them. Partial: see findings. |
| C122 | Over the whole problem of C107: `Opt/ReplaceProps.lean` gives, for a storage unit and names of the parts, the parts (bus, inflow generator, charging and discharging link, store) as data and maps points both ways; rows of each part are first put in plain form (`sunit_iff`, `store_iff`, `link_plain_iff`, `gen_plain_iff`), then `unit_to_parts`, `parts_to_unit` and `replaced_optimum`. The discharging link has `p_nom` divided by the efficiency as limit per unit; costs go to it times the efficiency. Spill costs are outside (there is no counterpart with the same constant). |
| C123 | `Opt/TurnProps.lean`: over the whole problem of C107, `turnNet` exchanges the ends of lines and transformers and negates their set points, `SameButTurned` relates points; `turn_irrelevant` (set up just as well, same feasible points, objective, costs) with the rows from outside equivalent, which `law_turn` gives for the voltage law over any two cycle bases. `PowerFlow/TurnProps.lean`: `lpf_turn`, `factors_turn` for any linear solver, `pf_turn` for the non-linear equations, the run of the solver, and recorded results. |
| C124 | `Opt/JoinProps.lean`, over the whole problem of C107: `joined` puts two networks in one, `Separate` says that they share no bus and no name. `joined_set_up` (balance with its two groups of buses and the objective included), `joined_feasible_partial`, `joined_cheapest_partial`, `joined_optimum_partial`. Partial because of ramp limits: if all limits of a class are 1 or missing they are left out, and begin to count with a unit of the other network; `joined_infeasible` is a pair of networks that can each be run but not together. Quadratic costs are outside. |
| C125 | `Opt/NamesProps.lean`, over the whole problem of C107: `renamed` gives new names to buses and assets, `BusesDiffer`/`AssetsDiffer` say that different things keep different names. `renamed_program`: equality of the two problems up to names, from the rows of assets (no name inside), the balance (entries, groups of buses by number of references, unused ports) and the objective. `all_known`: a problem mentions only variables of assets of the network. `names_irrelevant`: feasible plans, costs and optima correspond. Example: the network of `WholeExample.lean` with exchanged names of generators. |
| C126 | `Opt/RulesProps.lean`, over the whole problem of C107: `Doc.Rules` states all rules of the documentation as arithmetic on the columns of the network and the variables by name, without any helper of the model. `rules_iff`: rows ⇔ rules, class by class (`unit_rule`, `level_rule`, `limits_rule`, `loss_rule`, `sum_rule`, `supply_rule`); `best_iff`: the solver's optimum is the cheapest plan within the rules, within any domain (whole numbers). Covers later windows (`pastOf`: record of statuses, dispatch to ramp from), linearised commitment and several periods (`PeriodRule`: accounts per period). The rules follow the code where it is known to differ from the documentation: ramp limits are skipped if all are 1 (C45), the rule for shutting down limits starting up as well (C45), a unit without minimum up time counts as standing still before a later window (C44), `e_cyclic_per_period` restarts a store that is not cyclic (C47). |
| C127 | `Graph/Tree.lean`: `find_tree` with spanning tree and shortest path as library calls (`TreePaths`), `aggregate_multi_graph` as a loop with the lines as state. `Graph/TreeProps.lean`: telescoping along paths; uniqueness in radial sub-networks because a square right inverse of the incidence matrix is a left inverse; `lpf_radial` joins it with C25. Partial: the tree may run over branches out of service (`tree_through_inactive`); `aggregate_multi_graph` raises whenever there are parallel branches, after lines have been removed (`aggregate_fails`). |
| C128 | `Opt/AfterFlow.lean`: set points from the recorded results and controls of generators (`fix_optimal_dispatch`, `optimize_and_run_non_linear_powerflow`), on top of the models of results (C57) and of the power flow. `Opt/AfterFlowProps.lean`: injections from the nodal balance, bus by bus; the flows with `lpf_reproduces_partial` (C87). Partial: no phase shifts; a PQ bus may be missing (`no_pq_bus`); shunts are not in the optimisation (`shunt_not_optimised`); sub-networks without generators (label `None`) are not modelled, and convergence of the non-linear power flow is no claim. |
| C129 | `Plot/Maps.lean`: arguments of the patches handed to matplotlib (wedges, circles, arrows, rectangles), `aggregate_flow_by_connection`, area scaling, the argument `flow`; the square root is a parameter (`IsRoot`, met by `Real.sqrt`). `Plot/MapsProps.lean`: areas and angles by induction over the wedges, sums over groups for flows. Partial: colours shift when a branch has no arrow (`colours_shift`), joined names clash (`names_clash`), `flow` is ignored (`flow_ignored`). Projections, axes, colour maps and what matplotlib does with the patches are not modelled. |
| C130 | `Plot/Legend.lean`: the three functions over rationals, `round` as a parameter (`Rounds`, `RoundsTo`), labels as number, prefix, unit. `Plot/LegendProps.lean`: by the bounds of the logarithm. Partial: digits behind the point are cut off (`digits_cut`); units that begin with k, M, G, T or P are taken apart (`unit_taken_apart`). |
| C131 | Over the whole problem (C107), the windows of C116 and the rules of C126: `Opt/SnapshotProps.lean`. `snap_iff`: the rules of a network without links between snapshots are rules of single snapshots; `window_snap`: a window has the rules of its own snapshots; `best_snap`: in an optimal window every snapshot is optimal (replace one snapshot by another plan); `rolling_exact`: the record is an optimum of the whole. |
| C132 | `Opt/WeightingProps.lean` | The long network is the short one with all series read through a map of snapshots (`repeatNet`); budgets are rows over all snapshots weighted by the generator weightings. By `rules_iff` (C126) both problems are sets of rules; those of a snapshot are convex for given capacities, so means of plans are plans, and costs and budgets are linear. `Represents` is all that is asked of the weightings. |
| C133 | `Cluster/OptimumProps.lean` | Partial. Joins the model of clustering (`Cluster/Network.lean`) to that of the optimisation (`Opt/Whole.lean`): each row of the clustered network stands for a list of rows of the original one, the lists have every row once, limits of a row are sums of limits. Sums of an operation obey the rules of the clustered network at equal costs (`cluster_lower`, `cluster_bound_partial`); without merged buses each operation of the clustered network is shared out again (`cluster_upper`, `merge_exact`). Missing: merged generators with different marginal costs get the average, for which the bound is false (`average_costs_dearer`); links, transformers, storage and extendable capacities; loop rows of the clustered network. |
| C134 | `Cluster/Busmaps.lean`, `Cluster/BusmapsProps.lean` | Partial. The three methods that make busmaps, with the libraries as parameters: what they are told and what becomes of their answer. k-means: points as often as the whole part of the weight (`kmeans_busmap`), failures (`kmeans_ok_iff`). Hierarchical clustering (`hac_busmap_partial`): features and numbers of branches per bus, on top of the adjacency matrix of C21. Modularity: edges (`graph_edges`), weights without parallel lines (`graph_weight_partial`), clusters are communities (`modularity_busmap`). Then `clustering_buses` and `part_refused` for the clustered network. |
| C135 | `Opt/RentProps.lean` | About the whole problem of `Whole.lean` with the rows of the voltage law of `Kvl.lean`. Any change of the flows at one snapshot that the ratings, set points and further rows allow gains nothing at the prices (`passive_gain`). All flows to zero: `rent_nonneg`, and with the nodal balance `surplus`. Price differences over reactances as flows, which satisfy the voltage law with the prices as angles: `same_price`, `one_price`. One flow alone: `radial_price`. Further rows must be silent about the flows at the snapshot or be rows of the voltage law (`law_homogeneous`, `law_silent`, `law_elsewhere`). `Demo`: a triangle where one line goes against the prices. Not covered: losses, quadratic costs, limits on flows by further constraints. |
| C136 | `Plot/Charts.lean`, `Plot/ChartsProps.lean` | Model: the tables of the schema, `apply_parameter_schema`, `derive_statistic_parameters`, the calls of the plotters, the facets, the split by sign, the pivoting; seaborn as documented (mean at each place). Spec: the row of a table has a place (facet, label on the axis, colour) and what is drawn at a place is the sum of the marks there. `drawn_sum`, `drawn_mean`, `drawn_points`: what is drawn for any table; `drawn_iff`: when pivoting fails; `chart_shows_partial`: for the table the statistic returns for what was asked, each place shows its row. `parameters`, `asked`, `call_kind`, `map_legends`: parameters against separately written tables of defaults. Missing: `line_is_mean`, `bar_is_mean`, `flow_alone_refused`. Not covered: colours, labels, box, violin, histogram, `query`, figures of plotly. |
| C137 | `Opt/SharesProps.lean` | About the whole problem of `Whole.lean`, through the rules of C126. The spec is what a user would write down: tables of shares, the whole as the sum of its shares, a share as its part of the whole, rows about the sum over the shares. `rules_whole` and `rules_shared`: what may be done carries over both ways, because the rules are convex cones in capacity and operation (each rule is additive and scales); `cost_whole`, `cost_shared`, `supply_whole`: costs and supply are the same; `shares_optimum`: optima of the solver carry over both ways with equal costs. Ramp limits count for a whole class as soon as one asset has one (finding of C126), which shares do not change. Not for modules, commitment and quadratic costs, for which it is false. |
| C138 | `Opt/EmissionProps.lean` | The whole problem of `Whole.lean` with the row of `primaryLimit` (`Global.lean`, C51) as its last row, and the network in which the levy is added to the marginal costs. Spec: emissions as a sum over generators and snapshots (`limit_row` connects it with the row), costs plus price times emissions (`cost_priced`). `limit_is_price`: optimum and duals carry over from the limit to the price, with the same nodal prices (`Solved`); `price_is_limit`: back again, also for whole numbers; `higher_price`, `tighter_limit`: monotone by revealed preference and by the Lagrangian bound. `levy_plain`, `levy_weights`: the levy is price times emissions only if the weighting `generators` (times years) is the weighting of the costs. Storage that carries emissions over the horizon is excluded: its depletion cannot be charged through marginal costs. |
| C139 | `Graph/SubNetworks.lean`, `Graph/SubNetworksProps.lean` | The filters of `SubNetwork.components` by class, over tables with the columns they look at, and the column `sub_network` as `determine_network_topology` (C20) fills it. `InOne` is the spec of a split; `buses_together`, `ports_together`, `branches_together` as permutations. Violated: `iterate_all_fails` (the default of `iterate_components` reaches a class that is not supported), `out_of_service_shown` (without a period a line out of service is in the sub-network of its `bus0` even if its other end is elsewhere). Partial as C20 is: `shown_together_partial`. The warnings about carriers are not modelled. |
| C140 | `Opt/CommitProps.lean` | `commit sel w` sets `committable` on selected units of the whole problem. A plan is carried over with all of them on (`alwaysOn`), rule by rule of C126; back by leaving the statuses out. Spec: `Free`, `Harmless`, `OnOff`, `surcharge`, `NoReward`. Optima compared through `best_iff`. `must_run`, `starts_faster`, `must_rest`: networks where a condition fails and so does the claim. |
| C141 | `Opt/StaticsProps.lean` | `raise d w` adds a rise to the cost columns of the whole problem (C110). Spec: `burden`, the rise times the use of a plan. The rules of C126 do not look at costs, costs of a plan rise by its burden, and two optima are compared through `best_iff`. Loads: `price_is_marginal` (C110) in both directions, with `worth`, a change of loads valued at prices. |
| C142 | `PowerFlow/PerUnit.lean`, `PowerFlow/FlatProps.lean` | Model: the per-unit values of `calculate_dependent_values`, in the order in which they are written. Spec: `NewtonStep` (matrix of derivatives times the change is minus the mismatch), flat start. Without losses the active flow over a branch is a sine; its derivative at the flat start is the matrix of the linear power flow, by uniqueness of derivatives from C83. Radial: every branch separates the buses, so the flow over it is a sum of injections. Violated for T models (`t_model_differs`). |
| C143 | `Opt/PeriodProps.lean`, `Opt/QuadraticPeriodProps.lean` | Over the whole problem (C107) and the rules of C126. `recast` gives a network other periods; only the accounts of storages know about periods, so `rules_one` and `rules_scaled` show that the rules stay, and `total_scale` that costs are multiplied. Without links between periods (`Apart`) plans can be exchanged period by period (`rules_mix`), and costs are sums over periods (`cost_periods`); hence `best_periods` and `weights_irrelevant`. The same with quadratic costs: `quad_one_period_partial`, `quad_weights_scale_partial`, `quad_best_periods`, `quad_weights_irrelevant`, over the costs of C158 (`allCost`). Partial: start-up and shut-down costs are not weighted by period. |
| C144 | `Opt/CycleProps.lean` | Over the whole problem (C107) and the rules of C126. `turn` reads every series and weighting at another snapshot and `expand` does so for plans; `rules_turn` shows that rules stay, for storages by writing the account of a cyclic one without a first snapshot (`level_round`), and `cost_turn` that sums do not depend on the order. Turning back (`turn_back`) gives the converse, hence `order_free`; `rotation_exists` and `rotation_before` supply all rotations (`year_begins_anywhere`). |
| C145 | `Opt/LossPriceProps.lean` | Over the whole problem (C107) with losses, the rules of C126 and prices as reported (C90, C135). Another flow and loss of one branch within its rules (`operate_ok`) cannot gain (`branch_gain`); moving the loss alone to the highest tangent gives `losses_tight`, to its bound `losses_burn`, with the flow along the tangent `price_rises`; shutting down all branches together gives `earned_nonneg`. `losses_close` adds the distance of tangents (C48), and payments are added up over all buses in `surplus`. |
| C146 | `Opt/RecastProps.lean`, `Opt/RecastFuelProps.lean` | Over the whole problem (C107) through the rules of C126. `Exchange` relates plans of two networks (each has a counterpart, rules hold for both or none, same costs, same further rows); `exchange_best` and `exchange_solver` carry optima over. `line_as_link`, `load_as_generator`, `generator_as_fuel` give the exchange for the three rewritings; units are converted by `unit_scaled_iff` (all rules of a unit are homogeneous), levels by `level_sum`. |
| C147 | `Access/Model.lean`, `Access/Props.lean` | `n.components` as a dictionary from list names to references with aliases, the properties of the network, `n.static`, `n.dynamic`, `as_components`, `_initialize_components`, the attribute dictionary `Dict` and `ComponentType.__eq__`. Refinement: the specification is a map from list name and table to a value; `Shows` says that every way to read gives that value, `last_write` that any sequence of writes keeps it so (invariant, induction over writes). `assigned_not_found` refutes, `assigned_found_partial` says exactly which names are found again. Which attributes the Python classes have themselves is a parameter; objects are references into a heap; deprecation warnings and plotting accessors are left out. |
| C148 | `Geo/Length.lean`, `Geo/LengthProps.lean` | `Lines.calculate_line_length` over real numbers with `none` for NaN, on top of the distances of C79. Specification: `Long`, the angle between unit vectors (Mathlib's `InnerProductGeometry.angle`) times 6371000. `assigned_lost` says that assigning the result to the table of lines gives missing values only, since it is labelled by position; names of components are strings. |
| C149 | `Opt/Alternatives.lean`, `Opt/AlternativesProps.lean` | `optimize_mga` on the whole problem (C126): the budget as a further row, weights times sense as objective, what is recorded as state, runs as a sequence. Costs of what is recorded are those C64 derives from the statistics. Spec: `Near` (plans within a budget) and `amount`. Rows are linear, so mixtures of plans are plans (`near_mix`). `Within` is the full statement for several runs, `not_within` refutes it with dual certificates of two runs, `runs_within_partial` has the product of the slacks. |
| C150 | `Opt/CoarseProps.lean` | The whole problem (C126) of a network and of the network of means (`coarse`: means, sums of weightings and hours, levels at the end of blocks). Spec: `Even` says what has to be the same within a block, `RowsEven` the same for further rows (rows and budgets about powers). A plan is merged block by block (`merge`): limits are linear, levels telescope over a block, costs are equal (`cost_merge`). `means_plan` and `means_lower_partial`; missing are ramp limits, commitment, standing losses and costs that vary within a block. For the last two the bound is false (`not_lower_losses`, `not_lower_prices`). |
| C151 | `Opt/CurveProps.lean` | The whole problem (C126) for all values of a parameter: loads and right-hand sides change linearly (`netAt`, `limitsAt`), or cost columns do (`raise` of C141, times the parameter). Spec: `Convex` speaks of the costs of the optima at three values only. A mixture of plans is a plan for the mixture of values (`plan_mix`: all rows are linear and the demand is affine), and costs are linear (`cost_mix`). `convex_partial`, `steeper_partial` (slopes rise) and `concave`. Missing in the first two is whatever has to be whole, for which the claim is false (`not_convex`). |
| C152 | `Plot/Interactive.lean`, `Plot/InteractiveProps.lean` | `iplot` from its arguments to the figure (layout, lines, labels, markers, view, the default dictionary as a state that calls hand on), the positions and segments of static maps, and the rows of `explore`. Spec: `Depicts`, `Asked`, `Midway` say what a reader sees, without the model's lookups. `own_lines` (each branch once, between its own buses, in its own style), `drawn_iff` (when a map is refused), `own_view_partial` and `first_view_stays` (by induction over all calls), `keeps_data`, `static_coordinates`, `static_lines_partial`, `explore_rows`, `placed_partial`. Views, coordinates, kept lines and coordinate systems fail in general: `not_own_views`, `not_lasting_views`, `not_at_coordinates`, `not_keeps`, `not_placed`, `given_unused`, `ignores_coordinates`. Not modelled: drawing itself, flow arrows, colour maps, tooltips. |
| C153 | `Geo/Crs.lean`, `Geo/CrsProps.lean` | The system named by the network, the system of the table of shapes, and all coordinates, as a state that conversions, setters, additions, slices, partial copies and files act on (`Act`, `session`). pyproj and geopandas are a parameter (`Systems`: moving points, order of axes, codes and text). Spec: `Earth` says where a point is on earth, `Faithful` what the library keeps. `one_system` (invariant over all sessions), `shapes_stay`, `there_and_back`, `bus_lands`, `adds`, `set_iff`, `reloads`, `slices`; `buses_stay_partial` needs systems with the horizontal axis first and `copies_partial` the default system, for both there are witnesses (`not_buses_stay`, `not_copies`), and `not_settable` for the setter. Not modelled: missing coordinates, curves within geometries. |
| C154 | `Opt/Farkas.lean`, `Opt/ExistProps.lean` | Fourier-Motzkin elimination over any ordered field: `farkas` (a system without a point has weights that prove it), `optimum_exists`, `duals_exist`. Linked to the whole problem of C107 by one row per bus and snapshot (`balance_keys`), so that duals of rows are prices of buses, and to the rules of C126. `best_exists`, `prices_exist`, `priced_best`, `no_plan` (stated with worth of supply and of loads, without rows), `three_ways`, `thrifty_best`. This removes the assumption of C107-C111, C135 and C138 that a pair of solution and duals exists; that solvers return one stays an assumption. |
| C155 | `Opt/WelfareProps.lean` | `Competitive`: at given prices each asset earns at least what any other course within its rules (C126) earns. `market` (all assets together, with further rows), `welfare` (each asset alone), `same_prices`. The statements speak of rules, costs and revenues only. `not_whole_prices`: a unit that is on or off. |
| C156 | `Opt/OnOffProps.lean` | `OnOff` (C140): statuses, start-ups and shut-downs are 0 or 1. `commitment_best`: a plan and a lower limit of costs give an optimum (induction over the list of switches, each step compares the two sides with C154); `commitment_thrifty`: one plan is enough if no cost and no lower limit is negative; `commitment_prices`: with the switching of an optimum fixed, prices at which no other course with the same switching earns more. Modules (integers without limit) are not covered: over a general ordered field their optimum need not be attained. |
| C157 | `Opt/ShedProps.lean` | Model: `withShedding` (the generators of `add_load_shedding` with the defaults of generators.csv, names that exist are left alone) in the whole problem. `shed_rules`, `shed_total`, `shed_supply`: what the generators add to rules, costs and balance. `shed_plan`: whatever is missing can be shed. `shed_always`: an optimum with prices exists and costs no more than to shed all, also with units on or off (C154, C156). `shed_price`, `shed_cap`: price while less is shed than can be, and while something is shed. `shed_needless`: a plan stays optimal exactly if some supporting prices are below the costs of shedding. Missing: rows that count shedding, ramp limits that begin to count because of the new generators (C114), that the problem can be set up. |
| C158 | `Opt/QuadraticProps.lean` | Model: the objective of C06 with `marginal_cost_quadratic` in the whole problem. Spec: `allCost` (linear costs and `squares`), `Least`, `Competes` (profit of one asset with quadratic costs). `solver_least`: the solver's optimum is `Least`, for every domain of the variables. `least_tangent`: least costs exactly if best in the network with the slopes as marginal costs, so the linear theorems apply. `quad_market`, `quad_welfare`: prices exist exactly for these plans. `answered_iff`: the solver's duals (`Answered`) exist exactly for them. `quad_merit`: price and slope of a generator between its limits. `quad_load`: bound for other loads. `quad_unique`, `quad_course`: one output only. Missing: that an optimum exists; merit order of links, stores and storage units, ramp limits. |
| C159 | `Stats/Groupers.lean`, `Stats/GroupersProps.lean` | Model: registry of own groupers, documented groupers, subscript, `_get_grouping`, old functions; a function is its result and whether it has the parameters `port` and `nice_names`. `adds_spec`, `own_found`: after any history the last grouper of a name is found. `others_same` with `not_none_notices`. `column`, `column_hidden`, `label_attr`, `label_busCarrier`, `label_own`, `every_label`, `levels`: what keys mean. `subscript_same`, `dot_in_list`, `dot_same_partial`, `old_same`, `old_one`: ways to ask. Violated: `not_dot_same`, `dot_raises`, `old_raises`, see the findings. |
| C160 | `Opt/Wolfe.lean`, `Opt/QuadraticExistProps.lean` | `Wolfe.lean` proves Frank and Wolfe's theorem for squares with coefficients that are not negative, over the real numbers (the image of the feasible set under squared variables and linear costs is closed by Farkas' lemma, and limited where costs are). Applied to the program of `createModel`: `least_exists`, `quad_three_ways`, `quad_thrifty`, and with C158 `equilibrium_exists`. Weightings and quadratic costs must not be negative (`Rising`), start-ups and shut-downs not paid for (`Events`). |
| C161 | `Stats/BalanceUnit.lean`, `Stats/BalanceUnitProps.lean` | Model: `bus_carrier_unit` over the network of `Stats/Aggregate.lean`. `unit_named`, `unit_of_ports` (with the filter of the statistics, for any pattern search), `dependent_iff`, `accepted`. Violated for patterns (`not_patterns`, `pattern_raises`) and lists with carriers not in use (`list_raises`). |
| C162 | `Network/Columns.lean`, `Network/ColumnsProps.lean` | Model: the columns in `_import_components_from_df` and `_sort_attrs`; how Python lists a set is a parameter, one for each call. Induction over calls: `standard_first`, `same_columns`; `mem_step`, `own_there`, `own_stays`. Reproducible with at most one own column (`reproducible_partial`), not with two (`not_reproducible`). `own_lost` when all components were removed. |
| C163 | `Network/Weightings.lean`, `Network/WeightingsProps.lean` | Model: the tables of weightings with rows, columns and values under the four kinds of calls. Induction over calls: `rows_fit`, `columns_stay_partial`, `period_rows_partial`; values: `snapshots_value`, `periods_value`, `period_value`, `series_value`, `period_series_value`; times: `hours_step`, `hours_last`, `hours_sum`, `timed_value`. Violated: `not_columns_stay`, `not_period_rows`; `hours_single`. |
| C164 | `Opt/QuadraticStaticsProps.lean` | Over the whole problem with quadratic costs (C158): comparison of two optima by the exact gap `least_gap` (an optimum undercuts any other plan by the squares of the difference). Costs: `quad_bounds`, `quad_less_used`, `quad_gens`, `quad_reacts`, `quad_concave`; loads: `load_gap`, `quad_loads_convex`, `quad_prices_follow`, `quad_price_follows`; shedding: `quad_shed_cap`, `quad_shed` (reals). |
| C165 | `Plot/Flows.lean`, `Plot/FlowsProps.lean` | Model: what the flow argument stands for, the rows of the table made of the arguments, scaled flows. Branches: `onMap_iff`, `only_branches`, `all_without`, `with_flows`, `same_branches_partial`, `unknown_refused`; flows: `at_snapshot`, `aggregated`, `number`, `of_series`, `of_widths`, `of_nothing`, `one_arrow`. Violated: `not_same_branches`; `number_is_snapshot`, `dict_raises`. |
| C166 | `Cluster/OnePortGroupProps.lean` | Over the model of C65. `lone_kept_partial` (all numbers but two), `agreed`, `no_rule_once` (a column without a rule is kept once, not as often as there are members), `no_rule_lost` (exactly when the total is kept), `quadratic_dearer`, `quadratic_even`. Violated: `not_lone_kept`, `quadratic_doubles`, `shunt_lost`. |

Findings (places where the code violates the property), trusted details and
simplifications are listed per area below as the model grows.


## Area notes

### Options (`lean/Verif/Options`)

Modelled: `pypsa/_options.py` (`OptionsNode.get_option/set_option/_add_option/reset_all`,
`option_context`, the default tree). Not modelled: attribute access sugar,
`describe_options` printing.

* Finding (C01): naming the same option twice in one `option_context` call leaves the
  first temporary value behind (`option_context_duplicate_not_restored`).

### Component store (`lean/Verif/Network`)

Modelled: `Network.add/remove/set_snapshots/set_investment_periods`,
`io._import_components_from_df`, `io._import_series_from_df`,
`get_switchable_as_dense/iter`. Simplified: dtypes and type casting, logging, CRS and
geometry columns, `weightings_from_timedelta`, the order of columns of `Index.union`.
Attribute tables (defaults, static/series kind) are an arbitrary `Schema`.

* Finding (C04, C09): `set_snapshots([])` raises after storing the empty index
  (`empty_set_snapshots_breaks_alignment`).
* Finding (C05): a series for an attribute outside the schema with `overwrite=True`
  deletes the series of all other components
  (`add_overwrite_custom_series_wipes_others`).
* Finding (C06): a component that is "skipped" because it exists still gets the new
  series when it had none (`add_skipped_component_gets_series`); `overwrite=True` leaves
  old series in place (`add_overwrite_keeps_stale_series`); a custom series given for a
  new component is ignored once the table exists (`add_custom_series_ignored`).
* Finding (C08): `get_switchable_as_iter` uses `Series.append`, removed in pandas 2.

### Copy, slice, merge, rename (`lean/Verif/Network/Transfer*.lean`, `MergeProps`, `RenameProps`)

Modelled: `Network.copy`, `Network.__getitem__`, `io.merge`,
`Components.rename_component_names`. Simplified: the built-in line and transformer types of
a fresh network, `name`/`srid`/`meta`. A network that stores tables of default values
consistently is described by `Fits` (static columns, clean cells).

* Finding (C11): renaming a class other than `Bus` raises `KeyError` after the table has
  been renamed (`rename_line_raises_halfway`); a name that already exists is accepted
  (`rename_makes_duplicates`).
* Finding (C12): a slice keeps a link whose third port lies outside
  (`slice_dangling_third_port`).
* Finding (C13): `copy(snapshots=...)` that leaves out all snapshots of one investment
  period raises (`copy_without_a_period_raises`).
* Finding (C14): `components_to_skip=["Bus"]` is ignored (`merge_skip_bus_ignored`); custom
  series that both networks have are lost (`merge_loses_custom_series`).
* `MergeCall` models calls with `inplace` and `with_time`: without series only common names
  raise and static data are joined (`merge_static_partial`); in place the network becomes what
  a call with a copy returns, and is as before if the call raises (`merge_inplace_partial`).
* Finding (C14): `n + other` throws the merged network away: the sum is `None` and `n` is
  unchanged (`plus_loses`, `not_plus`; `networks.py` 370-372 calls `merge` without `inplace`).

### Equality (`lean/Verif/Equality`)

Modelled: `common.equals`, `Components.equals`, `Network.equals` on trees of numbers,
strings, frames, lists and dictionaries. Not modelled: numpy arrays, `Series`/`Index`,
accessors (always ignored), `log_mode`.

* Finding (C15): `True` equals `1` but `1` does not equal `True`
  (`equals_bool_int_asymmetric`); attributes only the second network has are ignored, and
  the reversed call raises `KeyError` (`network_equals_asymmetric`); frames compare up to a
  tolerance, which is not transitive (`frames_not_transitive`); frames without columns are
  all equal (`empty_frames_equal`).

### Graph (`lean/Verif/Graph`)

Modelled: `get_active_assets`, `adjacency_matrix`, `incidence_matrix`,
`determine_network_topology` (without the carrier warnings), `find_slack_bus`,
`find_bus_controls`, `find_cycles`. Class sets are Python sets, so the visiting order of the
branch classes is a parameter. Library assumptions: `scipy` `connected_components` is
modelled by a merging algorithm that numbers components by first node; `nx.cycle_basis` is
the parameter `cycles` with the assumption `CycleBasis` (its members are cycles and generate
all cycles), shown satisfiable on a triangle with a doubled side. The order in which
`graph.edges()` lists parallel pairs is not modelled.

* Finding (C20, C21): `no_branches` is overwritten for each branch class. If the class visited
  last has only inactive branches, all active branches of the other classes are dropped
  (`adjacency_drops_branches`, `topology_ignores_lines`).
* Finding (C24): `find_cycles` includes branches out of service (`cycle_through_inactive`).
* Finding (C127): `aggregate_multi_graph` calls `setattr` on a tuple, which raises for every
  pair of parallel lines, after all but the first have been removed (`aggregate_fails`).
* Findings (C129): colours of flow arrows shift (`colours_shift`), `names_clash`, the deprecated argument `flow` of
  `n.plot` has no effect (`flow_ignored`); the message about `geometry` and `auto_scale_branches` says the opposite of
  what is checked.
* Findings (C130): `round_to_significant_digits(5.7)` is 5 (`digits_cut`); "Tonnes" becomes "Ponnes"
  (`unit_taken_apart`).
* Finding (C127): `find_tree` includes branches out of service (`tree_through_inactive`).
* Finding (C128): the generator made "PQ" so that the Jacobian does not break may be at the slack bus; then no
  bus is PQ (`no_pq_bus`). Without lines and transformers the loop over `n.sub_networks.obj` raises
  (`controls_without_branches`). The key of the result is misspelt `terminantion_condition`.

### Linear power flow (`lean/Verif/PowerFlow/Linear*.lean`, `Injection*.lean`)

Modelled: `calculate_B_H`, `calculate_PTDF`, `sub_network_lpf`, `calculate_BODF`,
`network_lpf_contingency`, the link flows of `_network_prepare_and_run_pf`; one snapshot at
a time. Buses and branches are `Fin` indices, with the slack at 0; numbers are elements of a
field (ordered where positivity is used). Library assumption: `spsolve` solves regular
systems (`Solves`, shown satisfiable). Not modelled: zero impedances (`b = inf`), rounding,
`isinstance(snapshots, Sequence)` in `lpf_contingency`.

* Finding (C25): links with `active=False` still inject their set point
  (`inactive_link_injects`); a generator with `active=False` can be chosen as slack, so its
  adjustment is not part of the balance (`inactive_slack_generator`).
* Finding (C30): `lpf_contingency` returns NaN for all branches outside the sub-network of
  the outage (`contingency_others_nan`), and raises when there is an isolated bus
  (`contingency_isolated_bus_raises`) or a branch out of service in the sub-network
  (`contingency_inactive_branch_raises`).

### AC power flow (`lean/Verif/PowerFlow/{Admittance,Jacobian,Slack,Types,Results}*.lean`)

Modelled: `calculate_Y`, `newton_raphson_sparse`, `sub_network_pf` (mismatch, Jacobian, written
bus, branch and shunt results, distributed slack), the generator shares of
`sub_network_pf` and `sub_network_pf_singlebus`, `apply_line_types`, `apply_transformer_types`,
`wye_to_delta`, `apply_transformer_t_model`. One snapshot; numbers are real or complex.
The Newton step is an arbitrary function, so C31 and C82 do not depend on the linear solver;
C83 shows that the matrix passed to it is the derivative. Not modelled: zero impedances
(`1/0`), zero `num_parallel`, `use_seed`, multi-snapshot tables. `Results.lean` joins these to what is
written for generators, loads, stores and storage units, for all sub-networks one after the other.

* Finding (C32): shunt impedances with `active=False` are part of the admittance matrix
  (`inactive_shunt_counts`).
* Finding (C34): `if all(p_nom) == 0` is true as soon as one generator of a bus has `p_nom` 0;
  the replacement value 1 has no `pipe` method, so the call raises (`zero_p_nom_raises`).
* Finding (C34): generator weights given as a dict always raise
  (`dict_generator_weights_raise`); as a named series they must cover all generators of
  every bus (`missing_generator_weight_raises`).
* Finding (C34): with `slack_weights="p_nom_opt"` the split among generators of a bus uses `p_nom`
  (`p_nom_opt_uses_p_nom`).
* Finding (C34): a sub-network whose weights are all zero is accepted and no bus takes up slack
  (`zero_weights_accepted`).
* Finding (C34): in single-bus sub-networks, distribution by capacity gives NaN dispatch
  (`single_bus_capacity_nan`): a series over generators is multiplied with one over snapshots.
* Finding (C113): a sub-network without generators, for example a hydrogen bus with a store and a link, makes
  `n.pf()` raise for the whole network (`no_generator_raises`): column `None` of `generators_t.p`.
* Finding (C113): a slack generator out of service or with sign other than 1 leaves the bus unbalanced and the
  result counts as converged (`slack_mismatch`); a bus with weight but without generators too
  (`bus_without_generators`); shunts in sub-networks with one bus are ignored (`single_ignores_shunts`).

### Optimisation: activity, units, storage, losses (`lean/Verif/Opt`)

`LP.lean` models the part of `linopy` that is used: rows are lists of coefficient/variable pairs;
variables and rows excluded by a mask do not exist, and terms with missing variables are dropped.
Modelled: `get_active_assets`, `get_activity_mask`, `get_bounds_pu`; the rows of
`define_operational_constraints_for_{non_extendables,extendables,committables}`,
`define_ramp_limit_constraints`, `define_storage_unit_constraints`,
`define_store_constraints`, `define_loss_constraints`; every row of these concerns one asset, so the
model is per asset and what depends on the class is passed as a list. Not modelled: a
window that starts later when no dispatch has been recorded.

* Finding (C36): classes without `build_year` accept unknown investment periods
  (`unknown_period_accepted`).
* Finding (C44): with `min_up_time = 0` (the default) a window that continues an earlier one treats
  every unit as off before the window: it has to pay a start-up for a unit that keeps
  running and counts no shut-down (`rolling_without_min_up`).
* Finding (C45): if all ramp limits of a class are 1 no rows are written, although a unit with
  negative `p_min_pu` can change by more than its capacity and start-up limits exist
  (`ramp_all_ones`); time-dependent limits of committed units are ignored
  (`ramp_series_of_committed_ignored`).
* Finding (C116): `optimize_with_rolling_horizon` optimises capacities anew in every window and keeps the last ones; the dispatch
  recorded in earlier windows may exceed them (`capacity_of_last_window`). Nothing warns about extendable assets.
* Finding (C114): adding a link of no capacity and without ramp limits to a network whose links all have limits of 1 makes
  a feasible network infeasible (`spare_link_infeasible`): the limits of the other links count from then on.
* Finding (C120): raising the ramp limit of one link from 1 to 2 makes a feasible network infeasible, for the same reason
  (`looser_ramp_infeasible`). With `transmission_losses` a line with a larger rating can make supply more expensive
  (`larger_line_costs_more`): the tangents of the losses are placed at parts of the rating.
* Finding (C121): assets with `active=False` still matter in places. The initial contents of a switched-off store or storage
  unit are taken from the budget of a primary energy limit (`off_store_uses_budget`; `global_constraints.py` 289-312 has no
  mask). Without investment periods a least capacity `nom_min_<carrier>` of a bus is met by switched-off assets, which cost
  nothing (`off_meets_minimum`), and they use up a limit on transmission (`off_counts_in_volume`). A switched-off link decides
  whether the ramp limits of other links count (`off_link_infeasible`). A set capacity of a switched-off asset that is not
  extendable, and with losses a switched-off extendable line without greatest capacity, raise (`off_raises`).
* Finding (C47): `e_cyclic_per_period` is set by default, so by default a non-cyclic store
  starts each period with its initial energy (`default_store_restarts`); `e_initial_per_period`
  makes a cyclic store cycle per period (`cyclic_store_closed_by_initial_flag`). Storage units
  likewise.
* Finding (C84): with the default start-up and shut-down limits of 1 a committed unit with
  `ramp_limit_down` r has to start at an output of at least 1 - r, and with `ramp_limit_up` r
  it has to stop from at least 1 - r (`ramp_excludes_allowed_schedule`).
* Finding (C86): the rows added by the linearised unit commitment cut off on/off schedules that the
  exact one admits (`linearized_excludes`): they compare the previous dispatch with the
  present bound, and the start-up term of the last row has the wrong sign.

### Optimisation: balance, voltage law, capacities, global constraints (`lean/Verif/Opt`)

Modelled: `define_nodal_balance_constraints` (with the meshed/weakly meshed split of
`create_model`), `define_kirchhoff_voltage_constraints`, `define_nominal_constraints_for_extendables`,
`define_modular_variables`, `define_modular_constraints`, `define_fixed_nominal_constraints`,
`define_fixed_operation_constraints`, `define_total_supply_constraints`, and all of
`global_constraints.py`. Assumptions about libraries: the solver interface drops rows without
terms; `merge` of expressions of the same shape takes the coordinates of the first;
`merge([])` raises; `groupby` drops missing keys; `ffill` over snapshots takes the last variable that exists.
Not modelled: infinite coefficients (efficiency 0), carriers with other than string names.

* Finding (C39): with the split the optimisation raises if the weakly meshed part has no component
  (`split_raises`). The documented way to set the threshold, as keyword of `create_model`, is
  also passed on to the constructor of `linopy.Model`, which rejects it.
* Finding (C49): a branch out of service within a cycle still ties the other branches of the cycle
  (`kvl_excludes`).
* Finding (C87): phase shifts of transformers are ignored by the voltage law of the optimisation
  but not by the linear power flow (`lpf_differs`).
* Finding (C50): a set capacity on an asset which is not extendable raises.
* Finding (C53): a `tech_capacity_expansion_limit` without investment period (the default) has no
  effect (`tech_limit_ignored`); if two component classes have equally many buses the capacities of
  one are counted at the buses of the other (`tech_limit_mixed`).
* Finding (C55): an asset that is in service in one period only counts as newly built in every
  later period (`growth_counts_retired`); carriers of different classes get mixed up as in C53
  (`growth_mixed`).
* Finding (C51): the initial energy of storage that is never in service counts as used
  (`primary_counts_idle`); a limit for a later period counts what storage lost earlier
  (`primary_counts_earlier`); without matching component a lower bound is not enforced
  (`primary_not_enforced`).
* Finding (C52): a period outside the horizon raises, although the primary energy limit ignores it
  (`operational_period_raises`).
* Finding (C54): brackets are removed from carrier names, so a carrier with brackets in its own name
  never matches (`volume_not_enforced`).

### Optimisation: objective, results, fixing, shedding (`lean/Verif/Opt`)

Modelled: `define_objective`, `set_from_frame`, `assign_solution`, the prices of `assign_duals`,
`post_processing`, `get_bounds_pu`, the operational limits of all classes, `fix_optimal_capacities`,
`add_load_shedding`. Start-up and shut-down costs are per event, not weighted. `pinv` is any matrix with
`B Z B = B`. Not modelled: duals of other constraints, `buses_t.p` for snapshots outside the window (recomputed from
the recorded tables).

* Finding (C56): start-up and shut-down costs of a class that add up to zero without being zero
  are ignored (`event_costs_ignored`); spill costs raise if no unit has inflow (`spill_cost_raises`).
* Finding (C57): loads out of service count as injection (`inactive_load_counts`); losses of
  transformers are not recorded (`transformer_losses_missing`); with losses the flow of lines out of
  service is NaN (`inactive_line_nan`).
* Finding (C89): with line losses, the line flows of all snapshots outside the window become NaN, and zero with the
  next window (`window_loses_line_flows`).
* Finding (C90): if the solver returns no duals, prices recorded earlier are divided by the weights
  once more (`stale_price_rescaled`).
* Finding (C91): the angle of the slack bus is not zero, since the row instead of the column of the
  pseudo inverse is subtracted (`slack_angle_not_zero`); phase shifts are ignored.
* Finding (C58): fixing capacities can make the solution infeasible for units which are extendable
  and committable (`fix_committable_infeasible`) and with losses (`fix_losses_infeasible`); a
  set capacity makes the next optimisation raise (`fix_set_raises`).
* Finding (C59): the new generators have carrier `load`, but the carrier added is `Load`
  (`shedding_carrier_unknown`).

### Optimisation: discretisation, iterations, security, rolling horizon (`lean/Verif/Opt`)

Modelled: `discretized_capacity`, `optimize_transmission_expansion_iteratively` (the solver is an
arbitrary function from lines to optimal capacities), `optimize_security_constrained`,
`optimize_with_rolling_horizon` (windows and the carried levels of stores and units).

* Finding (C60): a value close to the maximum is rounded down although rounding up to the maximum
  would fit (`near_maximum_rounds_down`); with fractional last units a whole multiple may be skipped
  (`fraction_skips_multiple`); if the maximum is below a unit, needing nothing builds it
  (`nothing_needed_builds_maximum`); threshold zero can exceed the maximum
  (`threshold_zero_exceeds_maximum`).
* Finding (C61): a line whose recorded optimum is zero gets impedance zero in the first iteration
  (`first_iteration_zero`); one iteration more than `min_iterations` is made
  (`min_iterations_off_by_one`); discretisation changes `s_nom` of fixed lines for good
  (`fixed_lines_changed`) and leaves the impedance of the undiscretised capacity
  (`discretised_impedance_stale`); the last objective leaves out the cost of lines
  (`total_excludes_lines`).
* Finding (C62): an index of pairs, as documented, always raises (`pairs_raise`); so does a branch out
  of service in the sub-network of an outage (`inactive_branch_raises`).
* Finding (C63): a negative overlap skips snapshots (`negative_overlap`); the standing loss of the
  first snapshot of each window is not applied to the carried level (`standing_loss_skipped`);
  cyclic storage closes in each window (`cyclic_per_window`).

### Statistics and near-optimal alternatives (`lean/Verif/Stats`)

Modelled: `_aggregate_components`, `_aggregate_timeseries`, `_aggregate_with_weights`, the filters for
carriers and bus carriers, groupers, and the functions handed to them by `capex`, `installed_capex`,
`expanded_capex`, `optimal_capacity`, `installed_capacity`, `expanded_capacity`, `opex`, `supply`,
`withdrawal`, `energy_balance`, `curtailment`, `capacity_factor`, `revenue` (`statistics/abstract.py`,
`statistics/expressions.py`, `statistics/grouping.py`); the budget and objective of `optimize_mga`
(`optimization/abstract.py` 540-653).  A value is `Option` (NaN).  The recorded network of the cost
statistics is built from the model of the objective (`Opt/Objective.lean`), the recorded series from
an arbitrary valuation of its variables.  Left out: order of rows, plots, `market_value`,
`prices`, the rounding to five decimals in the theorems on costs (it is a parameter in the others),
the solver.

* Finding (C73): a list of ports is ignored (`ports_ignored`); `capex(at_port=True)` counts a branch once per
  port (`Demo.capex_per_port`).
* Finding (C74): `drop_zero=False` drops zeros (`drop_zero_false_drops`).
* Finding (C76): with investment periods, `expanded_capacity` of a group without installed capacity is
  missing (`Demo.greenfield_expansion`).
* Finding (C77): each class uses its own weightings (`Demo.balance_own_weights`); series that are not
  aggregated in time count assets out of service (`Demo.balance_counts_inactive`).
* Finding (C93): a bus carrier given as a string is exact in classes in which some bus has it and a
  pattern in the others (`carrier_by_class`).
* Finding (C117): several expressions of `n.optimize.expressions` differ from the statistics. The energy balance of
  stores uses the level `e` instead of the power, since `variables.csv` marks `p` as handled separately
  (`store_balance_is_level`, `store_balance_wrong`). `supply` and `withdrawal` clip coefficients instead of values: storage units never
  withdraw and charging is negative supply (`unit_supply`, `charging_missing`). `transmission` has the opposite sign
  (`transmission_reversed`). `capex` reads the column `p_nom` for all classes; the KeyError drops lines, transformers
  and stores silently (`capex_missing`, `line_capex_missing`). `capex`, `capacity` and `curtailment` drop
  classes without an asset that may be extended (`fixed_class_missing`, `link_capex_missing`). `curtailment` divides by
  `p_max_pu`, so one snapshot without availability makes the sum NaN (`curtailment_nan`, `night_curtailment`). Ports of links without a
  bus count (`unused_port_counts`). `opex` has links, which the statistic lacks, and only marginal costs (`opex_links`).
* Finding (C97, C64): the operating costs of links are missing in `opex` since `n.dynamic("Link")` has
  `p0` and no `p` (`CostDemo.link_opex_missing`); the optimum itself breaks the budget of the
  alternatives.  Costs of starts are weighted by investment period in statistics and not in the objective
  (excluded by `EventsWeighed`).
* Finding (C64): weights by asset raise for variables of operation (`series_weights_raise`); the default
  weights raise without extendable generators (`default_weights_raise`).

### Distances and bounding boxes (`lean/Verif/Geo`)

Modelled: `haversine_pts`, `haversine`, `compute_bbox` (`geo.py`) over the reals with Mathlib's trigonometric
functions; rounding is left out.

### Clustering (`lean/Verif/Cluster`)

Modelled: `busmap_by_stubs` (`clustering/spatial.py` 957-999); the busmap is a function, the graph a
list of pairs of ends.  `aggregateoneport`, `aggregatelines`, `aggregatebuses` and
`get_clustering_from_busmap` (87-596) with the default rules; a busmap may leave buses out.  Left out: infinite
and missing values, `weighted_min`, the order of rows, coordinates (the distance of clusters is a parameter),
series of buses and links, global constraints (which the clustered network shares with the original).  The methods that make
busmaps (603-950) are modelled around the calls of their libraries, which are parameters (`Busmaps.lean`).

* Findings (C134): weights of k-means are cut to whole numbers, so the unit matters and buses of weight below one
  do not count (`fractions_lost`); rows of features are taken by position (`features_by_position`); a bus name that
  does not exist is labelled as if it were the last bus (`unknown_bus_labelled`); no connections are told if the class
  of branches visited last has none in service (`connections_lost`); of parallel lines only the last counts for
  modularity (`parallel_not_added`).


* Finding (C69): a stub with a self-loop is its own neighbour and stays (`loop_keeps_stub`).
* Finding (C65): the initial energy of storage has no rule: if it agrees, it is counted once
  (`Demo.initial_energy_lost`), else an error is raised (`Demo.initial_energy_raises`).  A selection of buses
  does not restrict (`buses_ignored`).  Assets that are not merged and have no cluster get the empty bus
  (`Demo.unmapped_kept`).  Merged assets exist in every investment period (`merged_always_built`).
* Finding (C66): the impedance of a merged line refers to the greater voltage of its clusters but is used at
  that of the first end (`Demo.voltage_mismatch`); unset lengths multiply impedance and cost by the distance
  (`Demo.unset_length_scales`); without coordinates both are zero (`Demo.no_coordinates`); recorded flows of
  lines whose ends are swapped keep their sign (`Demo.flow_reversed`) and parallel lines with different flows
  raise (`Demo.solved_raises`).
* Finding (C67): ports of links beyond the second are not mapped (`Demo.third_port_dangling`).
* Finding (C68): names with blanks can collide (`flatten_collision`).
* Finding (C99): transformers are lost (`transformers_lost`, `Demo.transformer_disconnects`).

### Consistency checks (`lean/Verif/Consistency`)

Modelled: every check of `consistency_check` and `plotting_consistency_check` (`consistency.py` 29-927) as a test that reports
or not, the list of strict names and the exceptions.  The specification `Violated` says for each check what is to be found.
Left out: the text of messages, how often a check logs, `calculate_dependent_values`, pandas dtypes (strings here).

* Finding (C70): strict carriers are accepted and have no effect because the word looked up is misspelt
  (`carriers_never_strict`, `Demo.carriers_not_strict`); strict investment periods raise a plain `ValueError`
  (`Demo.periods_plain`).
* Finding (C71): an empty port `bus10` or `bus11` is reported (`Demo.empty_port_reported`); a column of a branch whose name
  begins with "bus" and does not end with a digit makes every check fail (`Demo.own_column_fails`).

### Export and import (`lean/Verif/IO`)

Modelled: `_export_to_exporter` and `_import_from_importer` (`io.py` 719-850, 1192-1303) on the model of the component store; a store holds the
tables by class and attribute, so the same functions stand for folders and datasets.  What a file does to names and
columns is a parameter of the model, the identity for netCDF; `CsvProps.lean` models the guessing of types by `pd.read_csv`.  The names of
variables and files are modelled in `NamesProps.lean`.  Left out: attributes of the network object, `meta`, coordinate systems, shapes,
rounding, booleans in CSV files, Excel and HDF5, weightings of snapshots other than the three known ones.  The proof
shows that reading a store is merging the data it holds into a new network, and uses the theorem on merging (C14).

* Finding (C16): a series that holds only the default is not written; if the static value is another one, that one is read
  afterwards (`Demo.default_series_lost`, exact condition in `export_import_same`).
* Finding (C16): without buses nothing else is read (`no_buses`); changes to standard types are lost (`Demo.changed_type_lost`);
  networks made with `ignore_standard_types` cannot be exported with the default arguments (`export_error`); missing values come back as
  defaults (`Demo.missing_value_filled`).
* Finding (C16, CSV): names such as `01` and `NA` change (`Demo.csv_leading_zeros`, `Demo.csv_na_name`); an empty text comes back as the default
  (`Demo.csv_empty_text`); with integer names of buses and an empty port all ports of the column dangle (`Demo.csv_ports_dangle`).
* Finding (C118): a network without a name comes back from CSV and Excel with the name NaN (`unnamed_is_nan`), so it does not equal the one written;
  `Network(file, name=...)` ignores `name` if the file has one (`name_argument_ignored`).
* Finding (C118): in Excel the meta data text `2030` comes back as a number, `None` and texts such as `NA` as NaN, lists as texts
  (`excel_meta_changes`, `excel_meta_text`).
* Finding (C118): a workbook that held another network keeps its series of attributes the new one does not have and of classes without components
  (`Demo.extra_sheet_read`); static tables are removed, unlike in a folder (`excel_over_older_partial`, `Demo.folder_and_workbook`).
* Finding (C118): in HDF5 a column of a component that does not exist is read as the last component (`stray_column`).
* Finding (C17): `remove_static` looks for files in a folder with the name of the class and finds none, and series of empty classes are
  not looked at (`stale_stays`, `Demo.stale_read`); custom series that the new network does not have stay (`Demo.stale_series_read`).
* Finding (C18): columns `i` and `t_...`, series `..._i` and custom classes whose list name extends another one with `_` (netCDF) or `-`
  (CSV) are mixed up (`Names.Demo`).

### Library of component types, keywords, selections of snapshots, ports (`lean/Verif/{Registry,Common,Ports}`)

Modelled: `add_component_type`, `get`, `_load_default_component_types` (`components/types.py`) and `_initialize_components`
(`networks.py` 488-506); conversions of Python are a parameter (`Conv.Sound`).  `rename_deprecated_kwargs` and `deprecated_kwargs` with Python's
binding of arguments (`common.py` 308-400); warnings return.  `as_index` (`common.py` 117-177); lists of tuples are left out.
`additional_linkports`, `update_linkports_component_attrs` (`descriptors.py` 420-480) and the import of links (`io.py` 1400-1513) with the
one table of attributes that all networks of a process share.

* Finding (C19): the library is kept by list names but the test for duplicates looks up the name.  A registered name is accepted
  again (`Demo.registered_name_accepted`), packaged types can be replaced (`Demo.type_replaced`), types are not found by their names
  (`Demo.custom_not_found`) and new networks do not have them (`Demo.custom_not_in_network`).
* C80: for tables of keywords in which a new keyword is itself an old one the order of the table decides
  (`Demo.chain_followed`, `Demo.chain_not_followed`); no table in the package is such.
* C81: labels may be repeated (`Demo.repeated_accepted`); the index object of the caller is renamed (`argument_renamed`).
* Finding (C101): the table of attributes is shared.  If another network has got a third port in between, links with three ports
  added to an older network get no table for the power there and a power flow raises (`Demo.other_network_breaks`).
* Finding (C102): the first links with a new port need their efficiency given.  Else the column is missing and an optimisation raises
  (`Demo.first_efficiency_missing`); links that were there before have a missing efficiency (`Demo.older_links_missing`).

### Import from PYPOWER and pandapower (`lean/Verif/IO/{Pypower,Pandapower}.lean`)

Modelled: `import_from_pypower_ppc` (`io.py` 1674-1882) into an empty network, the per-unit values (`pf.py` 990-1018) that the models of
`calculate_Y` and of the T-model conversion take from there; of `import_from_pandapower_net` (`io.py` 1885-2109) the switches and the
parameters of lines and transformers.  Not modelled: columns that PyPSA does not know, import into a network that is not empty, duplicate
names, loads and generators of pandapower.  PYPOWER's side (`ppFrom`, `ppTo`, `ppCurrent`, `ppInjection`) follows its manual
(`makeYbus`, `makeSbus`).  pandas' `replace` applies all pairs to the original values.

* Finding (C103): the status of branches and generators is ignored (`pypower_status_ignored`, the import warns); a transformer with
  rating zero gets NaN as impedance (`pypower_zero_rating`, the warning speaks of infeasibilities only); imported transformers follow the
  T model unless the user changes it (`pypower_t_model_differs`).
* Finding (C104): bus type 4 (isolated) raises an IndexError (`pypower_isolated_bus`).
* Finding (C105): closed switches in a row leave components at removed buses (`pandapower_switch_chain`); a bus that is the element of
  two closed switches raises a KeyError (`pandapower_switch_twice`).
* Finding (C106): with `extra_line_data` the number of circuits is ignored (`pandapower_double_circuit`); transformers without standard type are
  divided twice by their rated power (`pandapower_trafo_wrong_base`), with the opposite sign of the susceptance (`pandapower_trafo_sign`).

### The whole optimisation problem (`lean/Verif/Opt/{Whole,Duality,WholeLemmas,WholeRows,WholeExample,WholeProps}.lean`)

* `createModel` puts together the rows of the other models (limits, commitment, ramps, storage, losses of branches, capacities, set
  points, total supply, nodal balance) and the objective, as `create_model` (`optimization/optimize.py` 212-333) does; `busPrice` is the
  price that `assign_duals` writes.
* Parameter `other`: rows that couple assets in another way than the nodal balance (voltage law, global constraints, growth limits,
  `extra_functionality`).  They may mention any variable; what they pay or charge an asset is the term `coupled`.
* Assumption `Solved` (such answers exist for every optimum, C154): the solver returns a feasible point with duals of the right sign, stationarity and no duality gap.  Met by
  `exSolved`, an exact optimum of a network with all classes of assets.
* Integrality (modules, commitment) is not part of the rows: solvers return no duals for such problems.
* `LinearCosts`: no quadratic costs (for these see C158).  Stand-by costs, start-up and shut-down costs may be there.
* The price is the dual divided by the weighting; snapshots with weighting zero are excluded, there the code divides by zero.
* C107 `zero_profit_*` needs an extendable asset without bounds that bind at its capacity, without commitment and with set points zero;
  C108 `no_loss_*` that standing still is allowed (no positive lower limits, no energy at the start that must go somewhere).
* C109 `merit_order_gen`, `merit_order_link`; C110 `price_is_marginal` for any change of the loads; C111 `arbitrage_store`,
  `arbitrage_unit` for networks without investment periods.
* C112 (`Duals*.lean`): names of constraints are lists of the parts between dashes; a missing column reads as 0.
* Finding (C112): `f"mu_{spec}" in n.static(c)` looks for time series among the static columns, so that without `assign_all_duals` no
  documented `mu_*` series is written (`limits_not_recorded`).
* Finding (C112): for storage units the limits of dispatch, charging and state of charge write to the same `mu_upper`, `mu_lower`; the last
  one wins (`unit_limits`, `unit_limit_overwritten`).
* Finding (C112): `mu_upper` of lines, links and transformers is documented as "always non-negative" but is never positive
  (`upper_not_positive`, `upper_negative`).

### Charts (`lean/Verif/Plot/Charts*.lean`)

- Finding: if no column but component and snapshot is shown, the statistic is not told how to group and groups by carrier; `n.statistics.supply.plot.line()`
  shows the mean over the carriers (`line_is_mean`), bars over components likewise (`bar_is_mean`).  Areas sum.
- Finding: `color=None`, documented to disable colours, is the same as no `color` given, because `None` means "use the default" (`parameters`).
- Finding: `transmission_flow=True` for a statistic without flows, or `False` for one with flows, raises an error about legends (`flow_alone_refused`).
- Finding: the default `linewidth` of areas has no effect, since only parameters that are passed on get a default and `linewidth` is none of them.
- Finding: the argument `carrier` of `map` is not used.
- seaborn's `barplot` and `lineplot` are modelled as the mean of the rows at a place, which is their documented default estimator.

### Per-unit values (C142)

- Finding (`pf.py` 1013, 1016): `x_pu_eff` of transformers is written before `apply_transformer_t_model` changes `x_pu`. For the model "t", which is the default, the linear power flow and the power flow work with reactances which differ by the factor `1 - x b / 4` (without losses).
- Finding (`pf.py` 1013, 1236): a tap ratio of 0 counts as 1 in the power flow and gives the linear power flow a reactance of 0; a ratio for a `tap_side` other than 0 and 1 counts in the linear power flow only.
- `Grid` (C25) has no infinite susceptances, so the results need reactances other than 0 through the regular matrix.

### Investment periods (C143)

- Finding (`optimize.py` 193-201, `starts_not_weighted`): costs of start-ups and shut-downs are not multiplied by the weight of the period (nor by the weighting of the snapshot). If all weights are halved, a plan that was better becomes worse.
- Finding (`constraints.py` 429-448, `ramps_link_periods`, `newcomer_ramps`): ramp limits hold from the last snapshot of a period to the first one of the next, which is years later; a unit that enters service in a later period has to ramp up from 0 there, while one that enters service in the first period is free.
- Further rows (Kirchhoff, global constraints) are arbitrary in C143; for periods without links each has to be about one period.

### Order of snapshots (C144)

- Only storages can be cyclic: ramp limits, minimum up times and start-ups never look from the first snapshot back to the last one, so an otherwise cyclic year still has a beginning for committed and ramp-limited assets (`ramps_not_cyclic`).
- Storages in C144 are in service at all snapshots or at none; with investment periods only networks without storages are covered.

### Losses and prices (C145)

- With negative prices the tangents bound losses only from below, so an optimum burns power in lines: a flow of 9 that loses 9/8 is reported with losses of 2 (`Demo.losses_overstated`). No message tells so.
- The price along a branch with losses follows the flow rounded to a point of the tangents, not the flow: with few tangents prices at both ends are equal up to half the distance of two points.
- A flow at the midpoint of two tangents has no unique marginal loss; there, and on branches in meshed sub-networks (where the voltage law speaks of the flow), only `losses_tight`, `losses_close`, `losses_burn` and the payments are stated.

### Other words for the same plant (C146)

- A generator's `e_sum_max` counts snapshots by `snapshot_weightings.generators`, the level of a store by `snapshot_weightings.stores`. With different weightings the generator and the store of fuel differ; in C146 the store has the weightings of generators.
- A new component can change whether ramp limits of others count (finding of C114), therefore `RampsKept`.
- In a meshed sub-network the line takes part in the voltage law and the link does not; rows about the line are excluded by `Unnamed`.

### Ways to a component (C147)

- `n.components["Generator"] = x` stores `x` under `"Generator"`, but `n.components["Generator"]` looks up `"generators"`: the assignment has no effect on anything that reads (`assigned_not_found`).
- `n.components.get("Generator")` is `None` and `del n.components.Generator` raises `KeyError`, although `n.components["Generator"]` works (`class_name_unknown_to_dict`).
- `"Generator" in n.components` always raises (`contains_raises`); this is meant as a deprecation but leaves no way to ask.
- `Dict`: an item named like a method of dictionaries (`values`, `items`) can be stored but not read as an attribute (`values_hidden`).
- Types of components that differ in their standard types only count as equal (`standard_types_ignored`).

### Lengths of lines (C148)

- `calculate_line_length` returns a series labelled 0, 1, ..., not by the names of lines. `n.lines["length"] = n.c.lines.calculate_line_length()` therefore makes all lengths missing, without an error (`assigned_lost`). The attribute `length` is in kilometres, the result in metres.
- Coordinates are taken for longitude and latitude whatever `n.srid` is.

### Near-optimal alternatives one after another (C149)

- `optimize_mga` takes the costs of the optimum from the statistics of what is recorded in the network. A run records its own plan, so the next run on the same network (for example `max` after `min`) gets a budget of `1 + slack` times the costs of the alternative, not of the optimum: two runs with a slack of 20 percent can end with costs 44 percent above the optimum (`not_within`). The range of C149 holds if both runs start from the optimum, that is from copies of the network.

### Resampling (C150)

- The bound needs costs that are the same within a block: with a generator that is free at even and one that is free at odd snapshots, the resampled optimum costs 20 where 0 is enough (`not_lower_prices`).
- It also needs stores without standing losses. The code takes the loss of a whole block before it takes what is discharged in it, so energy that was used early in the block counts as lost: costs of 1 instead of 0 (`not_lower_losses`).
- `resample_timeseries` takes the mean of duplicate timestamps first, so these count once in the mean of the block; it is not called anywhere else in the package. Calendar arithmetic of pandas is not modelled, blocks have a fixed number of snapshots.

### Curves of costs (C151)

- With module sizes the curve of costs over loads is a staircase: half a unit of load costs 2 where the chord shows 1 (`not_convex`). Costs remain concave in prices then (`concave` holds for every domain).
- Only right-hand sides and loads move. Limits that enter as factors, as `p_max_pu` or efficiencies, are not covered; neither are `p_nom_max` and `p_nom_min`, except as further rows.

### Maps (C152)

- `iplot(mapbox_parameters={})` writes into the dictionary that is its default value (`interactive.py` 78, 303-326). The first map without parameters of its own fixes style, centre and zoom of all later ones in the session, whatever network they show (`first_view_stays`, `not_own_views`). All these figures hold the same dictionary, so a token given to a later call appears in earlier figures (`not_lasting_views`).
- `iplot` never uses the coordinates of buses: positions always come from a layout of networkx (`common.py` 101-117, `interactive.py` 170), also on a mapbox background, while the centre of the map is taken from the coordinates (`ignores_coordinates`, `not_at_coordinates`).
- Drawing into a given figure replaces the lines that were in it (`fig["layout"]["shapes"]`, 328), while its markers stay (`keeps_data`, `not_keeps`).
- Colours and texts of buses are taken by position, those of branches by label.
- Static `plot(layouter=f)` never calls `f`: it only asks whether one is given (`static.py` 238-239, `layouts_alike`). `geometry=True` is a `TypeError` and a Series of geometries has no truth value (660-677), so only `False` works.
- A static map with a Series for some branches draws only these, without a warning (569-573), while `iplot` refuses such a Series.
- `explore(crs=...)` does not use what is given (382-385, `given_unused`), and links are always placed as EPSG 4326, also when lines and buses are placed with the system of the network (509, `not_placed`).

### Coordinate systems (C153)

- `to_crs` converts shapes with geopandas, which takes the horizontal axis first, but buses with `Transformer.from_crs(current, self.crs)` without `always_xy=True` (`networks.py` 666-669), which takes axes in the order of the authority. For EPSG 4326, the default, that is latitude first, while `x` is the longitude. So buses are moved: they land at the mirrored place, and for systems with northing first (as EPSG 3035) `x` and `y` are exchanged as well (`bus_lands`, `not_buses_stay`). Buses and shapes that were at one place are apart afterwards. Converting back undoes it (`there_and_back`). The only test asks whether the numbers are other than before.
- The setter of `crs` calls `shapes.set_crs(new)`, which returns a copy that is dropped, and which raises if the shapes have another system. As shapes always have one, setting a system never changes anything for networks with shapes (`set_nothing`) and is refused for every system but EPSG 4326 for new networks (`not_settable`). The same holds for `srid`.
- `n.copy(snapshots=...)` sets `srid` on the copy, so it raises a `ValueError` for every network that is not in EPSG 4326 (`copies_partial`, `not_copies`), also without shapes.
- Slices add shapes before they set the system, so with geometries of another system than EPSG 4326 a slice is refused (`slices`). If geometries did not carry their system along, they would be labelled wrongly instead.
- A file without shapes brings back the system of the network but not that of the empty table of shapes; setting the system to what it already is raises then (example). Shapes of a network without buses are not read (`io.py` 1280-1283).

### Existence of optima and prices (C154, C155)

- With units that are on or off, prices need not exist: a block of 10 with stand-by costs that serves a load of 5 is best when on, but every price would have it half on (`not_whole_prices`). The prices PyPSA reports for such problems (if the solver gives any) need not support the plan in this sense.
- Quadratic costs are not covered here: elimination needs linear problems. C158 has the prices for them and C160 that an optimum exists. A store with a marginal cost has a cost with the sign of its power, so `thrifty_best` asks for none.

### Groupers (C159)

- `groupby=groupers.bus` (also `name`, `country`, `location`, `unit`) raises a `TypeError` for every network: `_get_grouping` passes `nice_names`, which these have no parameter for (`dot_raises`). The user guide says that `groupers.x` and `"x"` are the same; it holds for `carrier` and `bus_carrier` only, and for all of them inside a list (`dot_in_list`). The old `get_bus`, `get_country`, `get_unit` and `get_name` fail likewise (`old_raises`).
- A tuple of groupers is refused (`tuple_refused`), although `groupers["bus", "carrier"]` is the documented way to combine them.
- An own grouper called `carrier` also changes `bus_carrier` (`not_none_notices`). One called `list_groupers` makes all strings fail (`list_broken`), after one called `add_grouper` nothing can be registered (`add_broken`), and names that begin with an underscore are accepted but not found (`hidden_lost`).
- A column of a class called `country`, `location`, `unit`, `name` or `bus_carrier` cannot be grouped by (`column_hidden`).
- Not modelled: own groupers that replace internal methods of the registry, what pandas does with the labels (`Aggregate.lean` has the grouping), warnings.

### The unit of an energy balance (C161)

- `energy_balance(bus_carrier="AC|DC")` raises a `ValueError`, although `supply`, `withdrawal` and all others take the string as a pattern: the unit is looked up with the string itself (`not_patterns`). The same holds for a list with a carrier that no bus has (`list_raises`), and for an empty list.
- The docstring says that several units raise; they give "carrier dependent" (`dependent_iff`).

### Columns (C162)

- `_sort_attrs` appends own columns as `list(set - set)`, so two or more own columns have another order in another process (`not_reproducible`). Exported tables then differ between runs of the same script, and `==` or `equals` of networks built alike in two processes is false, as `DataFrame.equals` compares columns in order.
- If a class has no component left (all removed, or all overwritten), the next `add` forgets own columns (`own_lost`).
- Simplified: a column called `name` is not given; links have no further ports.

### Weightings (C163)

- `set_snapshots` with a MultiIndex does not touch `investment_period_weightings`: the new periods have no row (`not_period_rows`) until `set_investment_periods` is called, and `n.optimize(multi_investment_periods=True)` then fails with a `KeyError` when it looks the weightings up (`optimize.py` 88). Going back to snapshots without periods leaves the old rows.
- Assigning a DataFrame to `snapshot_weightings` checks the rows only. One with the column `objective` alone is accepted, and the weightings for stores and generators are gone (`not_columns_stay`).
- `set_snapshots(..., weightings_from_timedelta=True)` with a single snapshot makes all weightings NaN (`hours_single`), not the default weighting that was asked for.
- Simplified: labels of snapshots are distinct; `set_snapshots([])` is in the model (it raises after the snapshots were replaced), but `rows_fit` asks for none.

### Flows on a map (C165)

- Asking for flows removes branches from the map: only those with a column in `p0` are drawn. On a network that was not solved `n.plot(line_flow="mean")` draws no lines at all, without a warning; after reading a file, which leaves out columns of zeros, the branches without flow are gone (`not_same_branches`).
- If snapshots are numbers, as after `n.set_snapshots(range(24))`, `line_flow=10` shows the flows in snapshot 10, and `line_flow=30` a flow of 30 on every line (`number_is_snapshot`).
- A dictionary, which the documentation lists for `line_flow`, raises a `TypeError`, since line 599 asks for its hash (`dict_raises`).
- Simplified: a string is not parsed as a date (`"2013"` in a DatetimeIndex), snapshots have no periods, and the order in which branches are drawn is left out.

### Groups of merged assets (C166)

- Columns without a rule are taken once if they agree and raise otherwise. So two shunts with a susceptance of 3 each become one with 3 (`shunt_lost`), as the initial energy of stores does (C65). The total is kept exactly if it is zero or the asset is alone (`no_rule_lost`).
- `marginal_cost_quadratic` has no rule: a merged asset of m members costs m times what they cost if they share the output evenly (`quadratic_even`), and never less than they do (`quadratic_dearer`). Clustering therefore gives no lower bound of quadratic costs, other than in C133.
- A lone asset loses `build_year` and `lifetime` too, though nothing is merged with it (`not_lone_kept`): with investment periods it is in service in all of them.
