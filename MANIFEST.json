{"claims": [
  {"property": "C01", "status": "partial", "theorems": ["Verif.Options.option_context_restores_partial", "Verif.Options.option_context_duplicate_not_restored"], "note": "restored for every body and outcome when no option is named twice; with a repeated name the claim is false (witness)"},
  {"property": "C02", "status": "proved", "theorems": ["Verif.Options.options_refine_map", "Verif.Options.get_set_option"], "note": ""},
  {"property": "C03", "status": "proved", "theorems": ["Verif.Network.names_unique"], "note": ""},
  {"property": "C04", "status": "partial", "theorems": ["Verif.Network.tables_aligned_partial", "Verif.Network.empty_set_snapshots_breaks_alignment", "Verif.Network.import_series_fills"], "note": "holds for all histories without set_snapshots([]); that call raises after storing the empty index (witness)"},
  {"property": "C05", "status": "partial", "theorems": ["Verif.Network.add_frame_partial", "Verif.Network.raising_call_changes_nothing", "Verif.Network.add_overwrite_custom_series_wipes_others", "Verif.Network.add_accepts"], "note": "false for series of attributes outside the schema with overwrite=True (witness)"},
  {"property": "C06", "status": "partial", "theorems": ["Verif.Network.add_new_component", "Verif.Network.add_skips_existing_partial", "Verif.Network.add_skipped_component_gets_series", "Verif.Network.add_overwrite_keeps_stale_series", "Verif.Network.add_custom_series_ignored", "Verif.Network.add_accepts"], "note": "new names: proved; existing names: proved for static arguments, false for series arguments and for overwrite=True with an old series (witnesses)"},
  {"property": "C07", "status": "proved", "theorems": ["Verif.Network.remove_exact", "Verif.Network.add_remove_roundtrip", "Verif.Network.raising_call_changes_nothing"], "note": ""},
  {"property": "C08", "status": "proved", "theorems": ["Verif.Network.as_dense_effective", "Verif.Network.as_iter_eq_dense"], "note": "as_iter modelled with Series.append as concatenation; pandas >= 2 removed it, so there the iterator raises when a component has a series"},
  {"property": "C09", "status": "partial", "theorems": ["Verif.Network.set_snapshots_values_partial", "Verif.Network.empty_set_snapshots_breaks_alignment"], "note": "false for the empty list (witness)"},
  {"property": "C10", "status": "proved", "theorems": ["Verif.Network.set_investment_periods_flat", "Verif.Network.set_investment_periods_multi"], "note": ""},
  {"property": "C11", "status": "partial", "theorems": ["Verif.Network.rename_bus_partial", "Verif.Network.rename_line_raises_halfway", "Verif.Network.rename_makes_duplicates"], "note": "Proved for buses with non-clashing new names. False otherwise: renaming another class raises KeyError after the table was renamed, and clashing names are accepted; both shown by witnesses."},
  {"property": "C12", "status": "partial", "theorems": ["Verif.Network.slice_closed_partial", "Verif.Network.slice_dangling_third_port"], "note": "Proved for references through bus, bus0 and bus1. Further link ports may dangle (witness)."},
  {"property": "C13", "status": "partial", "theorems": ["Verif.Network.copy_content_partial", "Verif.Network.copy_without_a_period_raises"], "note": "Content of copies proved. copy(snapshots=...) without the snapshots of one investment period raises (witness)."},
  {"property": "C14", "status": "partial", "theorems": ["Verif.Network.merge_union_partial", "Verif.Network.merge_skip_bus_ignored", "Verif.Network.merge_loses_custom_series", "Verif.Network.merge_static_partial", "Verif.Network.merge_inplace_partial", "Verif.Network.merge_copy", "Verif.Network.plus_loses", "Verif.Network.not_plus"], "note": "Proved when Bus is not skipped, except custom series that both networks have. Both exceptions are violations (witnesses). Calls in place and without series are covered too; the + operator returns None and changes nothing (plus_loses, not_plus)."},
  {"property": "C15", "status": "partial", "theorems": ["Verif.Equality.network_equals_refl", "Verif.Equality.network_equals_symm_partial", "Verif.Equality.network_equals_trans_partial", "Verif.Equality.network_equals_content", "Verif.Equality.equals_bool_int_asymmetric", "Verif.Equality.network_equals_asymmetric", "Verif.Equality.frames_not_transitive", "Verif.Equality.empty_frames_equal"], "note": "Reflexivity and content proved in full. Symmetry fails for True vs 1 and for attributes only one network has; transitivity fails for frames (tolerance); witnesses given."},
  {"property": "C16", "status": "partial", "theorems": ["Verif.IO.export_import_partial", "Verif.IO.export_import_same", "Verif.IO.export_error", "Verif.IO.no_buses", "Verif.IO.Csv.names_back_partial", "Verif.IO.Csv.numbers_back", "Verif.IO.Csv.texts_back_partial", "Verif.IO.Demo.default_series_lost", "Verif.IO.Demo.no_buses_lost", "Verif.IO.Demo.changed_type_lost", "Verif.IO.Demo.missing_value_filled", "Verif.IO.Demo.csv_leading_zeros", "Verif.IO.Demo.csv_na_name", "Verif.IO.Demo.csv_empty_text", "Verif.IO.Demo.csv_ports_dangle"], "note": "Claim is false: a series holding only the default is not written, so another static value is read (exact condition proved); networks without buses, changed standard types and missing values do not come back; CSV changes some names and texts. Proved for all other networks."},
  {"property": "C17", "status": "partial", "theorems": ["Verif.IO.export_import_partial", "Verif.IO.stale_stays", "Verif.IO.stale_series_stays", "Verif.IO.Demo.stale_read", "Verif.IO.Demo.stale_series_read"], "note": "Claim is false: tables of classes that are empty in the new network and custom series it does not have stay. Proved if every older table is replaced."},
  {"property": "C18", "status": "partial", "theorems": ["Verif.IO.Names.netcdf_decodable_partial", "Verif.IO.Names.netcdf_absent", "Verif.IO.Names.csv_decodable", "Verif.IO.Names.Demo.registry_distinguished", "Verif.IO.Names.Demo.registry_no_hyphen", "Verif.IO.Names.Demo.column_t_lost", "Verif.IO.Names.Demo.column_series_collide", "Verif.IO.Names.Demo.column_i_replaces_names", "Verif.IO.Names.Demo.series_coordinate_collide", "Verif.IO.Names.Demo.custom_class_read_twice", "Verif.IO.Names.Demo.custom_class_file"], "note": "Proved for the built-in classes and attributes that are not called i, do not begin with t_ and whose series are not called like another one followed by _i; counterexamples for each of these."},
  {"property": "C19", "status": "partial", "theorems": ["Verif.Registry.add_partial", "Verif.Registry.refused_iff", "Verif.Registry.found_by_list_name", "Verif.Registry.not_found_by_name", "Verif.Registry.history_partial", "Verif.Registry.history_others", "Verif.Registry.history_keeps", "Verif.Registry.history_filed", "Verif.Registry.accepted_stays", "Verif.Registry.new_network", "Verif.Registry.Demo.registered_name_accepted", "Verif.Registry.Demo.type_replaced", "Verif.Registry.Demo.custom_not_found", "Verif.Registry.Demo.custom_not_in_network", "Verif.Registry.packaged_found", "Verif.Registry.loadDefaults_raises"], "note": "Claim is false: registered names are accepted, types can be replaced and are not found by name (witnesses). Proved: other list names are never touched, for all histories."},
  {"property": "C20", "status": "partial", "theorems": ["Verif.Graph.topology_components_partial", "Verif.Graph.topology_ignores_lines"], "note": "Labels are exactly the connected components of the active lines and transformers. Fails when the class visited last has rows but none active (witness)."},
  {"property": "C21", "status": "partial", "theorems": ["Verif.Graph.adjacency_counts_partial", "Verif.Graph.adjacency_drops_branches", "Verif.Graph.unknown_end_refused"], "note": "Entries are the sums of weights of active branches. Fails when the class visited last has rows but none active (witness)."},
  {"property": "C22", "status": "proved", "theorems": ["Verif.Graph.incidence_columns", "Verif.Graph.unknown_end_refused"], "note": "One column per active branch, +1/-1/0 and zero column sum."},
  {"property": "C23", "status": "proved", "theorems": ["Verif.Graph.bus_controls_complete"], "note": "Slack, PV and PQ buses, bus order, exactly one slack generator."},
  {"property": "C24", "status": "partial", "theorems": ["Verif.Graph.cycle_columns_closed_partial", "Verif.Graph.cycle_columns_span", "Verif.Graph.cycle_columns_count", "Verif.Graph.cycle_through_inactive"], "note": "Columns are cycles, span all closed walks and fit the matrix, given that nx.cycle_basis returns a cycle basis. Branches out of service are included in the columns (witness)."},
  {"property": "C25", "status": "proved", "theorems": ["Verif.PowerFlow.lpf_balance", "Verif.PowerFlow.Bred_regular", "Verif.PowerFlow.slack_generator_consistent", "Verif.PowerFlow.inactive_link_injects", "Verif.PowerFlow.inactive_slack_generator"], "note": "For every regular system; connected with positive impedances implies regular. Finding: links out of service still inject, generators out of service can be the slack."},
  {"property": "C26", "status": "proved", "theorems": ["Verif.PowerFlow.lpf_kvl"], "note": "Flows come from angles; every combination of branches without net outflow has zero voltage sum."},
  {"property": "C27", "status": "proved", "theorems": ["Verif.PowerFlow.lpf_linear", "Verif.PowerFlow.lpf_slack_independent", "Verif.PowerFlow.flows_unique"], "note": "Linearity for regular systems; slack independence for connected sub-networks with positive impedances."},
  {"property": "C28", "status": "proved", "theorems": ["Verif.PowerFlow.ptdf_reproduces_lpf"], "note": "Holds for every injection vector, with the shift terms when there are phase shifters."},
  {"property": "C29", "status": "proved", "theorems": ["Verif.PowerFlow.bodf_exact", "Verif.PowerFlow.branchPtdf_ne_one"], "note": "Connected after the outage, positive impedances; also with phase shifters."},
  {"property": "C30", "status": "partial", "theorems": ["Verif.PowerFlow.contingency_inside_partial", "Verif.PowerFlow.contingency_others_nan", "Verif.PowerFlow.contingency_isolated_bus_raises", "Verif.PowerFlow.contingency_inactive_branch_raises"], "note": "Violated: branches of other sub-networks become NaN. Proved inside the sub-network of the outage."},
  {"property": "C31", "status": "proved", "theorems": ["Verif.PowerFlow.AC.newton_honest"], "note": "All residuals, steps, starts, iteration limits; NaN errors included."},
  {"property": "C32", "status": "partial", "theorems": ["Verif.PowerFlow.AC.admittance_pi_model", "Verif.PowerFlow.AC.piCircuit_unique", "Verif.PowerFlow.AC.admittance_symmetric", "Verif.PowerFlow.AC.admittance_row_sums", "Verif.PowerFlow.AC.inactive_shunt_counts"], "note": "Full statement proved for all branches and shunts; the code also counts shunts which are not in service (inactive_shunt_counts)."},
  {"property": "C33", "status": "proved", "theorems": ["Verif.PowerFlow.Types.t_model_equivalent", "Verif.PowerFlow.Types.wye_delta_equivalent"], "note": "Equivalence of terminal relations in both directions."},
  {"property": "C34", "status": "partial", "theorems": ["Verif.PowerFlow.Slack.bus_shares", "Verif.PowerFlow.AC.distributed_bus_adjustments", "Verif.PowerFlow.Slack.generator_adjustments_partial", "Verif.PowerFlow.Slack.single_bus_p_set_partial", "Verif.PowerFlow.Slack.zero_p_nom_raises", "Verif.PowerFlow.Slack.dict_generator_weights_raise", "Verif.PowerFlow.Slack.missing_generator_weight_raises", "Verif.PowerFlow.Slack.p_nom_opt_uses_p_nom", "Verif.PowerFlow.Slack.zero_weights_accepted", "Verif.PowerFlow.Slack.single_bus_capacity_nan"], "note": "Sums and proportionality proved for all accepted weights; acceptance of all valid weights is false, with counterexamples."},
  {"property": "C35", "status": "proved", "theorems": ["Verif.PowerFlow.Types.line_types", "Verif.PowerFlow.Types.line_types_idempotent", "Verif.PowerFlow.Types.trafo_types", "Verif.PowerFlow.Types.trafo_types_idempotent"], "note": "Lines and transformers."},
  {"property": "C36", "status": "partial", "theorems": ["Verif.Opt.active_assets_partial", "Verif.Opt.activity_mask", "Verif.Opt.unknown_period_accepted"], "note": "Unknown investment periods are accepted for classes without build_year (unknown_period_accepted); otherwise proved."},
  {"property": "C37", "status": "proved", "theorems": ["Verif.Opt.bounds_documented", "Verif.Opt.bounds_reindexed"], "note": ""},
  {"property": "C38", "status": "proved", "theorems": ["Verif.Opt.Nodal.nodal_balance"], "note": "All networks; buses without name are excluded."},
  {"property": "C39", "status": "partial", "theorems": ["Verif.Opt.Nodal.split_same_partial", "Verif.Opt.Nodal.split_raises"], "note": "The split gives the same constraints whenever both parts have a component; it raises otherwise."},
  {"property": "C40", "status": "proved", "theorems": ["Verif.Opt.dispatch_limits"], "note": "Generators, links and other one-variable assets; the loss term of passive branches is in C48."},
  {"property": "C41", "status": "proved", "theorems": ["Verif.Opt.start_shut_track"], "note": "First window; a window that continues an earlier one is in C44."},
  {"property": "C42", "status": "proved", "theorems": ["Verif.Opt.min_up_time", "Verif.Opt.min_up_relaxed"], "note": ""},
  {"property": "C43", "status": "proved", "theorems": ["Verif.Opt.min_down_time", "Verif.Opt.min_down_relaxed"], "note": ""},
  {"property": "C44", "status": "partial", "theorems": ["Verif.Opt.rolling_state_partial", "Verif.Opt.rolling_without_min_up"], "note": "False for min_up_time = 0 (rolling_without_min_up)."},
  {"property": "C45", "status": "partial", "theorems": ["Verif.Opt.ramp_limits_partial", "Verif.Opt.ramp_all_ones", "Verif.Opt.ramp_series_of_committed_ignored"], "note": "False if all limits of the class are 1 and for time-dependent limits of committed units (witnesses)."},
  {"property": "C46", "status": "proved", "theorems": ["Verif.Opt.storage_telescopes", "Verif.Opt.cyclic_store_nets_zero", "Verif.Opt.storage_creates_no_energy"], "note": ""},
  {"property": "C47", "status": "partial", "theorems": ["Verif.Opt.storage_periods_partial", "Verif.Opt.default_store_restarts", "Verif.Opt.cyclic_store_closed_by_initial_flag"], "note": "False for the default flags (witnesses)."},
  {"property": "C48", "status": "proved", "theorems": ["Verif.Opt.true_loss_admitted", "Verif.Opt.loss_lower_bound", "Verif.Opt.loss_needs_finite_rating"], "note": ""},
  {"property": "C49", "status": "partial", "theorems": ["Verif.Opt.Kvl.kvl_angles_partial", "Verif.Opt.Kvl.kvl_tied", "Verif.Opt.Kvl.kvl_excludes"], "note": "Rows hold iff angles exist, if all branches are in service; a branch out of service in a cycle constrains the others."},
  {"property": "C50", "status": "proved", "theorems": ["Verif.Opt.Capacity.capacity_bounds"], "note": ""},
  {"property": "C51", "status": "partial", "theorems": ["Verif.Opt.Global.primary_energy_partial", "Verif.Opt.Global.primary_other_period", "Verif.Opt.Global.primary_counts_idle", "Verif.Opt.Global.primary_not_enforced", "Verif.Opt.Global.primary_counts_earlier"], "note": "Proved when a matching component exists and all matching storage is in service at some time; depletion counts from the initial energy even if the limit is for a later period."},
  {"property": "C52", "status": "partial", "theorems": ["Verif.Opt.Global.operational_limit_partial", "Verif.Opt.Global.operational_period_raises"], "note": "As C51; a period outside the horizon raises."},
  {"property": "C53", "status": "partial", "theorems": ["Verif.Opt.Global.tech_limit_partial", "Verif.Opt.Global.column_sound", "Verif.Opt.Global.column_complete", "Verif.Opt.Global.bus_column", "Verif.Opt.Global.tech_limit_ignored", "Verif.Opt.Global.tech_limit_mixed"], "note": "Proved for limits with a period and classes at the same buses; limits without period are ignored and buses of different classes get mixed up."},
  {"property": "C54", "status": "partial", "theorems": ["Verif.Opt.Global.carriers_read", "Verif.Opt.Global.volume_limit_partial", "Verif.Opt.Global.cost_limit_partial", "Verif.Opt.Global.volume_not_enforced"], "note": "Proved when some branch is in the limit and the listed names have no brackets; names with brackets never match."},
  {"property": "C55", "status": "partial", "theorems": ["Verif.Opt.Global.growth_limit_partial", "Verif.Opt.Global.growth_counts_retired", "Verif.Opt.Global.growth_mixed"], "note": "Proved for assets that stay in service to the end; an asset retired after one period counts as new later, and carriers of different classes get mixed up."},
  {"property": "C56", "status": "partial", "theorems": ["Verif.Opt.Objective.objective_is_cost_partial", "Verif.Opt.Objective.event_costs_ignored", "Verif.Opt.Objective.spill_cost_raises"], "note": "start-up and shut-down costs of a class that add up to zero without being zero are ignored; spill costs raise if no unit has inflow"},
  {"property": "C57", "status": "partial", "theorems": ["Verif.Opt.Results.results_balance_partial", "Verif.Opt.Results.inactive_load_counts", "Verif.Opt.Results.transformer_losses_missing", "Verif.Opt.Results.inactive_line_nan"], "note": "loads out of service count as injection, losses of transformers are not recorded, flows of lines out of service become NaN with losses"},
  {"property": "C58", "status": "partial", "theorems": ["Verif.Opt.Accessor.fix_keeps_bounds", "Verif.Opt.Accessor.fix_keeps_unit_partial", "Verif.Opt.Accessor.fix_committable_infeasible", "Verif.Opt.Accessor.fix_losses_infeasible", "Verif.Opt.Accessor.fix_set_raises"], "note": "fails for units both extendable and committable, for transmission losses, and if capacities are set"},
  {"property": "C59", "status": "proved", "theorems": ["Verif.Opt.Accessor.load_shedding", "Verif.Opt.Accessor.shedding_carrier_unknown"], "note": "generators get the carrier load while the carrier added is Load"},
  {"property": "C60", "status": "partial", "theorems": ["Verif.Opt.Discrete.discretized_partial", "Verif.Opt.Discrete.discretized_idempotent", "Verif.Opt.Discrete.near_maximum_rounds_down", "Verif.Opt.Discrete.fraction_skips_multiple", "Verif.Opt.Discrete.nothing_needed_builds_maximum", "Verif.Opt.Discrete.threshold_zero_exceeds_maximum"], "note": "Multiples, bound and distance proved under the stated conditions; witnesses show where the code deviates near the maximum."},
  {"property": "C61", "status": "partial", "theorems": ["Verif.Opt.Iterative.expand_keeps_partial", "Verif.Opt.Iterative.expand_restores", "Verif.Opt.Iterative.loop_count", "Verif.Opt.Iterative.objectives_sum", "Verif.Opt.Iterative.first_iteration_zero", "Verif.Opt.Iterative.min_iterations_off_by_one", "Verif.Opt.Iterative.fixed_lines_changed", "Verif.Opt.Iterative.discretised_impedance_stale", "Verif.Opt.Iterative.total_excludes_lines", "Verif.Opt.Iterative.expand_leaves_fixed"], "note": "Invariance of impedance times capacity proved for nonzero recorded capacities; witnesses for the first iteration, discretisation and fixed lines."},
  {"property": "C62", "status": "partial", "theorems": ["Verif.Opt.Security.security_rows", "Verif.Opt.Security.security_exists", "Verif.Opt.Security.security_covers", "Verif.Opt.Security.resolve_lines", "Verif.Opt.Security.pairs_raise", "Verif.Opt.Security.inactive_branch_raises"], "note": "Rows exactly cover all outages in a sub-network and, with the exact BODF, bound the linear power flow after each non-islanding outage. Raises for an index of pairs and for branches out of service."},
  {"property": "C63", "status": "partial", "theorems": ["Verif.Opt.Rolling.rolling_windows", "Verif.Opt.Rolling.rolling_levels_partial", "Verif.Opt.Rolling.negative_overlap", "Verif.Opt.Rolling.standing_loss_skipped", "Verif.Opt.Rolling.cyclic_per_window"], "note": "Windows proved for all integers; levels chain over windows for storage without standing loss and not cyclic."},
  {"property": "C64", "status": "partial", "theorems": ["Verif.Stats.budget_partial", "Verif.Stats.budget_iff", "Verif.Stats.alt_value", "Verif.Stats.alt_direction", "Verif.Stats.sense_other", "Verif.Stats.series_weights_raise", "Verif.Stats.default_weights_raise", "Verif.Stats.CostDemo.link_opex_missing"], "note": "budget exact for networks whose links have no operating cost and one weighting; finding: operating costs of links are missing in opex so that the optimum itself breaks the budget; weights by asset raise for variables of operation; the default rounding of statistics is left out"},
  {"property": "C65", "status": "partial", "theorems": ["Verif.Cluster.OnePort.oneport_totals", "Verif.Cluster.OnePort.oneport_totals_series", "Verif.Cluster.OnePort.oneport_available", "Verif.Cluster.OnePort.oneport_bounds", "Verif.Cluster.OnePort.oneport_one_row", "Verif.Cluster.OnePort.oneport_others_kept", "Verif.Cluster.OnePort.oneport_raises", "Verif.Cluster.OnePort.Demo.initial_energy_lost", "Verif.Cluster.OnePort.Demo.initial_energy_raises", "Verif.Cluster.OnePort.Demo.unmapped_kept", "Verif.Cluster.OnePort.buses_ignored", "Verif.Cluster.OnePort.merged_always_built", "Verif.Cluster.OnePort.oneport_rules", "Verif.Cluster.OnePort.oneport_default"], "note": "fails for attributes without a rule such as the initial energy (Demo.initial_energy_lost); a selection of buses is ignored"},
  {"property": "C66", "status": "partial", "theorems": ["Verif.Cluster.Lines.lines_pairs", "Verif.Cluster.Lines.lines_linemap", "Verif.Cluster.Lines.lines_capacity", "Verif.Cluster.Lines.lines_usable", "Verif.Cluster.Lines.lines_cost", "Verif.Cluster.Lines.lines_impedance", "Verif.Cluster.Lines.lines_raises", "Verif.Cluster.Lines.Demo.voltage_mismatch", "Verif.Cluster.Lines.Demo.unset_length_scales", "Verif.Cluster.Lines.Demo.no_coordinates", "Verif.Cluster.Lines.Demo.flow_reversed", "Verif.Cluster.Lines.Demo.solved_raises"], "note": "susceptance is conserved per unit of the greater voltage and rescaled to the new length; findings for mixed voltages, unset lengths, missing coordinates and recorded flows"},
  {"property": "C67", "status": "partial", "theorems": ["Verif.Cluster.Network.cluster_refs_partial", "Verif.Cluster.Network.cluster_links", "Verif.Cluster.Network.Demo.third_port_dangling"], "note": "ports beyond the second are not mapped (third_port_dangling)"},
  {"property": "C68", "status": "partial", "theorems": ["Verif.Cluster.OnePort.flatten_injective_partial", "Verif.Cluster.OnePort.oneport_names_partial", "Verif.Cluster.OnePort.flatten_collision"], "note": "fails with blanks in names of clusters (flatten_collision)"},
  {"property": "C69", "status": "partial", "theorems": ["Verif.Cluster.stubs_representative", "Verif.Cluster.stubs_connected", "Verif.Cluster.stubs_agree", "Verif.Cluster.stubs_none_left_partial", "Verif.Cluster.stubs_mesh_kept", "Verif.Cluster.loop_keeps_stub"], "note": "a stub with a self-loop stays (loop_keeps_stub); excluded in stubs_none_left_partial"},
  {"property": "C70", "status": "partial", "theorems": ["Verif.Consistency.strict_raises_partial", "Verif.Consistency.strict_error", "Verif.Consistency.strict_value_error", "Verif.Consistency.strict_refused", "Verif.Consistency.warnings_exact", "Verif.Consistency.lenient_done", "Verif.Consistency.carriers_never_strict", "Verif.Consistency.plotting_strict", "Verif.Consistency.Demo.carriers_not_strict", "Verif.Consistency.Demo.periods_plain"], "note": "Proved for all checks except carriers; the claim is false for carriers (misspelt word, carriers_never_strict)."},
  {"property": "C71", "status": "partial", "theorems": ["Verif.Consistency.unknown_buses_exact_partial", "Verif.Consistency.Demo.empty_port_reported", "Verif.Consistency.Demo.own_column_fails"], "note": "Exact for columns bus and bus0 to bus9; false for bus10 and for own columns that begin with bus."},
  {"property": "C72", "status": "proved", "theorems": ["Verif.Stats.supply_minus_withdrawal", "Verif.Stats.supply_nonneg"], "note": "group by group, for sums"},
  {"property": "C73", "status": "partial", "theorems": ["Verif.Stats.grand_total", "Verif.Stats.group_value", "Verif.Stats.groupOf_labels", "Verif.Stats.missing_label_lost", "Verif.Stats.selected_rows", "Verif.Stats.ports_ignored", "Verif.Stats.ports_all", "Verif.Stats.Demo.capex_per_port", "Verif.Stats.label_iff", "Verif.Stats.refused_iff"], "note": "totals are kept for rows with labels; finding: rows with a missing label are lost, a list of ports is ignored, and capex(at_port=True) counts a branch once per port"},
  {"property": "C74", "status": "partial", "theorems": ["Verif.Stats.drop_zero_false_drops", "Verif.Stats.drop_zero_partial"], "note": "finding: drop_zero=False drops zeros like True; with True exactly the non-zero groups remain, unset keeps all groups"},
  {"property": "C75", "status": "proved", "theorems": ["Verif.Stats.mean_weighted"], "note": "weights of positive total"},
  {"property": "C76", "status": "partial", "theorems": ["Verif.Stats.capex_split", "Verif.Stats.expanded_capacity_partial", "Verif.Stats.Demo.greenfield_expansion", "Verif.Stats.systemCost_value"], "note": "finding: with investment periods a group absent from installed_capacity is absent in expanded_capacity"},
  {"property": "C77", "status": "partial", "theorems": ["Verif.Stats.balance_vanishes", "Verif.Stats.default_groups", "Verif.Stats.total_balanced", "Verif.Stats.Demo.balance_own_weights", "Verif.Stats.Demo.balance_counts_inactive"], "note": "finding: classes use their own weightings; series in frames count assets out of service"},
  {"property": "C78", "status": "proved", "theorems": ["Verif.Geo.bbox_contains", "Verif.Geo.bounds_exact"], "note": "margin relative to the extent; NaN coordinates are ignored"},
  {"property": "C79", "status": "proved", "theorems": ["Verif.Geo.great_circle", "Verif.Geo.distance_comm", "Verif.Geo.distance_range", "Verif.Geo.distance_zero", "Verif.Geo.distance_self", "Verif.Geo.distance_triangle", "Verif.Geo.haversine_entry", "Verif.Geo.hav_range", "Verif.Geo.haversinePts_entry"], "note": "real arithmetic; also the triangle inequality and the identity with the angle on the sphere"},
  {"property": "C80", "status": "partial", "theorems": ["Verif.Common.rename_spec", "Verif.Common.alias_call", "Verif.Common.no_alias", "Verif.Common.positional_and_alias", "Verif.Common.values_kept", "Verif.Common.Demo.chain_followed", "Verif.Common.Demo.chain_not_followed"], "note": "Proved for all calls and all tables in which no new keyword is itself an old one; with such chains the order of the table decides (witnesses)."},
  {"property": "C81", "status": "proved", "theorems": ["Verif.Common.asIndex_none", "Verif.Common.asIndex_labels", "Verif.Common.asIndex_accepts", "Verif.Common.asIndex_unforced", "Verif.Common.timesteps_refused", "Verif.Common.argument_renamed"], "note": "Empty selections with another number of levels aside, accepted iff every label is in the network's index."},
  {"property": "C82", "status": "proved", "theorems": ["Verif.PowerFlow.AC.pf_converged_balance"], "note": "For every Newton step function and start."},
  {"property": "C83", "status": "proved", "theorems": ["Verif.PowerFlow.AC.jacobian_is_derivative"], "note": "All entries, including the distributed slack column."},
  {"property": "C84", "status": "partial", "theorems": ["Verif.Opt.ramp_rows_complete_partial", "Verif.Opt.ramp_excludes_allowed_schedule"], "note": "False for the default start-up and shut-down limits (witness)."},
  {"property": "C85", "status": "proved", "theorems": ["Verif.Opt.commitment_complete"], "note": ""},
  {"property": "C86", "status": "partial", "theorems": ["Verif.Opt.linearized_valid_partial", "Verif.Opt.linearized_excludes"], "note": "False for time-dependent bounds and for shut-down limits above the ramp-down limit (witnesses)."},
  {"property": "C87", "status": "partial", "theorems": ["Verif.Opt.Kvl.lpf_reproduces_partial", "Verif.Opt.Kvl.lpf_differs"], "note": "Proved without phase shifts, which the optimisation ignores."},
  {"property": "C88", "status": "proved", "theorems": ["Verif.Opt.Capacity.set_points"], "note": ""},
  {"property": "C89", "status": "partial", "theorems": ["Verif.Opt.Results.window_keeps", "Verif.Opt.Results.windows_keep", "Verif.Opt.Results.losses_added", "Verif.Opt.Results.window_loses_line_flows"], "note": "with line losses the line flows of snapshots outside the window become NaN"},
  {"property": "C90", "status": "partial", "theorems": ["Verif.Opt.Results.price_is_dual", "Verif.Opt.Results.stale_price_rescaled"], "note": "if the solver returns no duals, prices recorded earlier are divided by the weights once more"},
  {"property": "C91", "status": "partial", "theorems": ["Verif.Opt.Results.angles_explain_flows_partial", "Verif.Opt.Results.slack_angle_not_zero"], "note": "without phase shifts; the angle of the slack bus is not zero"},
  {"property": "C92", "status": "proved", "theorems": ["Verif.Opt.Accessor.branch_rating", "Verif.Opt.Accessor.storage_unit_bounds", "Verif.Opt.Accessor.plain_bounds"], "note": ""},
  {"property": "C93", "status": "partial", "theorems": ["Verif.Stats.selected", "Verif.Stats.selected_partial", "Verif.Stats.selected_string_partial", "Verif.Stats.carrier_by_class"], "note": "finding: a string is exact in a class with such a bus and a pattern in others"},
  {"property": "C94", "status": "proved", "theorems": ["Verif.Stats.capacity_factor_range", "Verif.Stats.capacity_value"], "note": "range of the capacity factor; value of capacities"},
  {"property": "C95", "status": "proved", "theorems": ["Verif.Stats.curtailment_value", "Verif.Stats.curtailment_nonneg"], "note": "value and sign"},
  {"property": "C96", "status": "proved", "theorems": ["Verif.Stats.revenue_vanishes"], "note": "weightings that agree"},
  {"property": "C97", "status": "partial", "theorems": ["Verif.Stats.statistics_cost_partial", "Verif.Stats.capex_total", "Verif.Stats.installed_total", "Verif.Stats.opex_total_partial", "Verif.Stats.constant_capital", "Verif.Stats.CostDemo.link_opex_missing"], "note": "finding: opex of links is missing; multi-period start-up costs are weighted in statistics only"},
  {"property": "C98", "status": "proved", "theorems": ["Verif.Stats.market_value_range", "Verif.Stats.revenue_supply"], "note": "for groups that only inject; for a line or storage revenue is net of what it buys (Demo.market_value_of_line)"},
  {"property": "C99", "status": "partial", "theorems": ["Verif.Cluster.Network.cluster_connected", "Verif.Cluster.Network.cluster_adjacent", "Verif.Cluster.Network.link_cost", "Verif.Cluster.Network.transformers_lost", "Verif.Cluster.Network.Demo.transformer_disconnects", "Verif.Cluster.Network.cluster_voltage"], "note": "lines and links; transformers are lost (transformer_disconnects)"},
  {"property": "C100", "status": "proved", "theorems": ["Verif.Registry.formatRow_spec", "Verif.Registry.format_spec", "Verif.Registry.static_or_varying", "Verif.Registry.format_again"], "note": "Conversions of Python are a parameter with stated assumptions."},
  {"property": "C101", "status": "partial", "theorems": ["Verif.Ports.fresh_good", "Verif.Ports.good_runs", "Verif.Ports.beforeFlow_good", "Verif.Ports.oneByOne_good_partial", "Verif.Ports.others_kept", "Verif.Ports.Demo.other_network_breaks", "Verif.Ports.Demo.beforeFlow_no_repair", "Verif.Ports.Demo.ports_leak"], "note": "Proved for histories that build one network after the other; false if an older network gets links with a port another network brought in (witness)."},
  {"property": "C102", "status": "partial", "theorems": ["Verif.Ports.import_good_partial", "Verif.Ports.import_inStep", "Verif.Ports.import_old", "Verif.Ports.import_new", "Verif.Ports.Demo.first_efficiency_missing", "Verif.Ports.Demo.second_efficiency_filled", "Verif.Ports.Demo.older_links_missing"], "note": "Proved if the efficiency of each new port is given; false otherwise (witnesses)."},
  {"property": "C103", "status": "partial", "theorems": ["Verif.IO.Pypower.pypower_same_power_flow", "Verif.IO.Pypower.pypower_same_solutions", "Verif.IO.Pypower.pypower_linear", "Verif.IO.Pypower.pypower_status_ignored", "Verif.IO.Pypower.pypower_zero_rating", "Verif.IO.Pypower.pypower_t_model_differs"], "note": "Proved for all cases with all components in service and ratings (or a replacement) for transformers. Missing: components out of service are imported like others (pypower_status_ignored, documented), a transformer with rating zero gets no finite impedance (pypower_zero_rating), and without setting the pi model transformers with charging differ (pypower_t_model_differs)."},
  {"property": "C104", "status": "partial", "theorems": ["Verif.IO.Pypower.pypower_structure", "Verif.IO.Pypower.pypower_branches", "Verif.IO.Pypower.pypower_import_succeeds", "Verif.IO.Pypower.pypower_isolated_bus"], "note": "Proved for every case that is imported. Missing: a case with an isolated bus (type 4) is not imported at all (pypower_isolated_bus)."},
  {"property": "C105", "status": "partial", "theorems": ["Verif.IO.Pandapower.pandapower_switches_partial", "Verif.IO.Pandapower.pandapower_switch_chain", "Verif.IO.Pandapower.pandapower_switch_twice"], "note": "Proved for switches that form stars. Missing because false: two closed switches in a row leave components at a removed bus (pandapower_switch_chain), a bus that is the element of two closed switches makes the import fail (pandapower_switch_twice)."},
  {"property": "C106", "status": "partial", "theorems": ["Verif.IO.Pandapower.pandapower_line_partial", "Verif.IO.Pandapower.pandapower_line_circuits", "Verif.IO.Pandapower.pandapower_double_circuit", "Verif.IO.Pandapower.pandapower_trafo_partial", "Verif.IO.Pandapower.pandapower_trafo_scale", "Verif.IO.Pandapower.pandapower_trafo_wrong_base", "Verif.IO.Pandapower.pandapower_trafo_sign"], "note": "Proved for single circuits and transformers of 1 MVA without magnetising susceptance. Missing because false: parallel circuits are ignored with extra_line_data, transformer data are divided twice by the rated power and the susceptance has the opposite sign."},
  {"property": "C107", "status": "proved", "theorems": ["Verif.Opt.Whole.zero_profit_gen", "Verif.Opt.Whole.zero_profit_link", "Verif.Opt.Whole.zero_profit_store", "Verif.Opt.Whole.zero_profit_unit", "Verif.Opt.Whole.zero_profit_line", "Verif.Opt.Whole.zero_profit_trafo"], "note": "For every answer of the solver that satisfies the optimality conditions (Solved); constraints beyond the nodal balance are arbitrary and enter as what they pay or charge."},
  {"property": "C108", "status": "proved", "theorems": ["Verif.Opt.Whole.no_loss_gen", "Verif.Opt.Whole.no_loss_link", "Verif.Opt.Whole.no_loss_store", "Verif.Opt.Whole.no_loss_unit", "Verif.Opt.Whole.no_loss_line", "Verif.Opt.Whole.no_loss_trafo"], "note": "As C107."},
  {"property": "C109", "status": "proved", "theorems": ["Verif.Opt.Whole.merit_order_gen", "Verif.Opt.Whole.merit_order_link"], "note": "As C107."},
  {"property": "C110", "status": "proved", "theorems": ["Verif.Opt.Whole.price_is_marginal"], "note": "For all other loads and all feasible points of the changed problem."},
  {"property": "C111", "status": "proved", "theorems": ["Verif.Opt.Whole.arbitrage_store", "Verif.Opt.Whole.arbitrage_unit"], "note": "For consecutive active snapshots."},
  {"property": "C112", "status": "partial", "theorems": ["Verif.Opt.Duals.dual_recorded", "Verif.Opt.Duals.limits_recorded_partial", "Verif.Opt.Duals.unit_limits", "Verif.Opt.Duals.unit_limit_overwritten", "Verif.Opt.Duals.limits_not_recorded", "Verif.Opt.Duals.price_recorded", "Verif.Opt.Duals.global_recorded", "Verif.Opt.Duals.upper_not_positive", "Verif.Opt.Duals.upper_negative"], "note": "Proved with assign_all_duals for all classes but storage units, and for prices and global constraints. Missing because false: without assign_all_duals limits are not recorded, storage units get the shadow price of the state of charge, the sign of upper limits is not the documented one."},
  {"property": "C113", "status": "partial", "theorems": ["Verif.PowerFlow.Results.components_balance_partial", "Verif.PowerFlow.Results.set_points_kept", "Verif.PowerFlow.Results.sub_balanced", "Verif.PowerFlow.Results.single_balanced", "Verif.PowerFlow.Results.no_generator_raises", "Verif.PowerFlow.Results.slack_mismatch", "Verif.PowerFlow.Results.single_ignores_shunts", "Verif.PowerFlow.Results.bus_without_generators"], "note": "Holds when every sub-network has a slack generator and the generators that take up power are in service with sign 1 and have usable weights. Otherwise the code violates it: a sub-network without generators raises for the whole network, a slack generator out of service or with another sign leaves the mismatch, shunts at single buses are ignored, a weighted bus without generators is left unbalanced."},
  {"property": "C114", "status": "partial", "theorems": ["Verif.Opt.Whole.more_options_partial", "Verif.Opt.Whole.optimum_not_worse_partial", "Verif.Opt.Whole.spare_link_infeasible"], "note": "Every feasible point stays feasible at the same costs with all added assets at rest. Partial: ramp limits of a class that are all 1 are left out until a unit with another limit is added, with which a feasible network can become infeasible (witness)."},
  {"property": "C115", "status": "proved", "theorems": ["Verif.Opt.Whole.order_irrelevant"], "note": "For all permutations; rows of the voltage law and global constraints are a parameter that is taken to be equivalent in both orders."},
  {"property": "C116", "status": "partial", "theorems": ["Verif.Opt.Whole.rolling_feasible_partial", "Verif.Opt.Whole.rolling_not_cheaper_partial", "Verif.Opt.Whole.capacity_of_last_window", "Verif.Opt.Whole.window_costs", "Verif.Opt.Whole.cost_snapshots"], "note": "Fixed capacities, no commitment, storage not cyclic and without losses at window starts; witness for capacities to be optimised."},
  {"property": "C117", "status": "partial", "theorems": ["Verif.Stats.balance_expression_partial", "Verif.Stats.supply_less_withdrawal", "Verif.Stats.transmission_reversed", "Verif.Stats.operation_class", "Verif.Stats.opex_expression_partial", "Verif.Stats.opex_links", "Verif.Stats.capacity_expression_partial", "Verif.Stats.capex_expression_partial", "Verif.Stats.fixed_class_missing", "Verif.Stats.capex_missing", "Verif.Stats.line_capex_missing", "Verif.Stats.link_capex_missing", "Verif.Stats.curtailment_expression_partial", "Verif.Stats.curtailment_nan", "Verif.Stats.night_curtailment", "Verif.Stats.store_balance_is_level", "Verif.Stats.store_balance_wrong", "Verif.Stats.unit_supply", "Verif.Stats.charging_missing", "Verif.Stats.unused_port_counts", "Verif.Stats.aggregate_congr", "Verif.Stats.transmits_iff"], "note": "Equal tables for generators, loads, storage units, lines, transformers and used ports of links; for classes with an extendable asset and the column p_nom; for marginal costs; for curtailment with positive availability. Shown to fail: stores, charging, sign of transmission, missing classes, NaN, unused ports, links in opex."},
  {"property": "C118", "status": "partial", "theorems": ["Verif.IO.Formats.tables_back_partial", "Verif.IO.Formats.excel_apart", "Verif.IO.Formats.hdf5_apart", "Verif.IO.Formats.excel_over_older_partial", "Verif.IO.Formats.columns_back", "Verif.IO.Formats.stray_column", "Verif.IO.Formats.excel_meta_back", "Verif.IO.Formats.excel_meta_text", "Verif.IO.Formats.excel_meta_changes", "Verif.IO.Formats.attrs_back_partial", "Verif.IO.Formats.unnamed_is_nan", "Verif.IO.Formats.name_argument_ignored", "Verif.IO.Formats.Demo.extra_sheet_read", "Verif.IO.Formats.Demo.folder_and_workbook"], "note": "Tables come back from workbooks and HDF5 stores under distinct names, also over an older workbook except for series unknown to the network; columns by position; attributes and meta data. False in general: unnamed networks, texts in Excel meta data, older series sheets."},
  {"property": "C119", "status": "proved", "theorems": ["Verif.Opt.Whole.units_irrelevant", "Verif.Opt.Whole.prices_convert"], "note": "The whole problem in other units of power, time and money has the same solutions, costs and prices."},
  {"property": "C120", "status": "partial", "theorems": ["Verif.Opt.Whole.looser_limits_partial", "Verif.Opt.Whole.optimum_no_worse_partial", "Verif.Opt.Whole.looser_ramp_infeasible", "Verif.Opt.Whole.larger_line_costs_more"], "note": "Every plan stays feasible at the same costs. Violated where a class has only ramp limits of 1 and for ratings of lines with losses (witnesses); committed units keep their capacity, with linearised commitment all limits."},
  {"property": "C121", "status": "partial", "theorems": ["Verif.Opt.Whole.off_partial", "Verif.Opt.Whole.off_optimum_partial", "Verif.Opt.Global.tech_off", "Verif.Opt.Global.bus_off", "Verif.Opt.Global.transmission_off", "Verif.Opt.Global.primary_off_partial", "Verif.Opt.Whole.off_link_infeasible", "Verif.Opt.Whole.off_raises", "Verif.Opt.Global.OffDemo.off_store_uses_budget", "Verif.Opt.Global.OffDemo.off_meets_minimum", "Verif.Opt.Global.OffDemo.off_counts_in_volume"], "note": "For assets of all classes with active=False: the same feasible points, costs and optima as without them, if their capacity limits can be met and ramp limits of the class do not change. Fails for the initial contents of switched-off storage in primary energy limits, capacity limits and transmission limits without investment periods, the test for ramp limits of a class, and two errors (witnesses)."},
  {"property": "C122", "status": "proved", "theorems": ["Verif.Opt.Whole.unit_to_parts", "Verif.Opt.Whole.parts_to_unit", "Verif.Opt.Whole.replaced_optimum"], "note": "Both directions for fixed capacities; for capacities to be optimised only from the unit to the parts (the parts can be sized separately)."},
  {"property": "C123", "status": "proved", "theorems": ["Verif.Opt.Whole.turn_irrelevant", "Verif.Opt.Whole.law_turn", "Verif.Opt.Kvl.kvl_turn", "Verif.Opt.Kvl.basis_turn", "Verif.PowerFlow.lpf_turn", "Verif.PowerFlow.factors_turn", "Verif.PowerFlow.AC.pf_turn"], "note": "Turning a transformer also negates its phase shift and moves its tap changer; set points of the flow are negated. Optimisation over the whole problem of C107, with the voltage law over any cycle bases; linear solver arbitrary."},
  {"property": "C124", "status": "partial", "theorems": ["Verif.Opt.Whole.joined_set_up", "Verif.Opt.Whole.joined_feasible_partial", "Verif.Opt.Whole.joined_cheapest_partial", "Verif.Opt.Whole.joined_optimum_partial", "Verif.Opt.Whole.joined_infeasible"], "note": "Ramp limits of a class must count in both networks or in none; joined_infeasible shows two networks that can each be run alone but not in one network, since ramp limits of 1 are left out only if all units of the class have them. Costs linear."},
  {"property": "C125", "status": "proved", "theorems": ["Verif.Opt.Whole.renamed_program", "Verif.Opt.Whole.names_irrelevant", "Verif.Opt.Whole.all_known"], "note": "Over the whole problem of create_model (Whole.lean). renamed_program: the problem of the renamed network equals the problem with renamed variables and buses, row by row and term by term, also when setting up fails. names_irrelevant: feasible plans, costs (with quadratic ones) and optima correspond, and every optimum has a counterpart. Rows that couple assets in other ways (voltage law, global constraints, extra_functionality) are a parameter and are renamed as well; carriers are not part of this model; sorting of the buses in the second group of balance rows is left out, so the order of these rows may differ in the code."},
  {"property": "C126", "status": "proved", "theorems": ["Verif.Opt.Whole.Doc.rules_iff", "Verif.Opt.Whole.Doc.best_iff", "Verif.Opt.Whole.Doc.unit_rule", "Verif.Opt.Whole.Doc.branch_rule", "Verif.Opt.Whole.Doc.level_rule", "Verif.Opt.Whole.Doc.linear_rule", "Verif.Opt.Whole.Doc.ramp_rule"], "note": "Requires recorded statuses of 0 or 1 before later windows, and periods that are consecutive and share the activity where accounts are kept per period. The rules follow the code where other claims show that it differs from the documentation (C44, C45, C47)."},
  {"property": "C127", "status": "partial", "theorems": ["Verif.Graph.tree_total", "Verif.Graph.tree_flow_partial", "Verif.Graph.tree_flow_unique", "Verif.Graph.lpf_radial", "Verif.Graph.tree_through_inactive", "Verif.Graph.aggregate_keeps_partial", "Verif.Graph.aggregate_fails"], "note": "Trees: balance of all branches, in service or not (witness for branches out of service). Aggregation of parallel lines raises for every sub-network that has some."},
  {"property": "C128", "status": "partial", "theorems": ["Verif.Opt.AfterFlow.start_injections", "Verif.Opt.AfterFlow.start_total", "Verif.Opt.AfterFlow.lpf_keeps_dispatch", "Verif.Opt.AfterFlow.lpf_after_optimise_partial", "Verif.Opt.AfterFlow.controls_set", "Verif.Opt.AfterFlow.slack_kept", "Verif.Opt.AfterFlow.pq_bus_partial", "Verif.Opt.AfterFlow.no_pq_bus", "Verif.Opt.AfterFlow.shunt_not_optimised"], "note": "Injections, imbalance, linear power flow (no phase shifts) and controls are proved; a PQ bus may be missing, and shunts are ignored by the optimisation."},
  {"property": "C129", "status": "partial", "theorems": ["Verif.Plot.pie_areas", "Verif.Plot.pie_halves", "Verif.Plot.circle_areas", "Verif.Plot.arrow_direction", "Verif.Plot.arrow_turned", "Verif.Plot.colours_partial", "Verif.Plot.rectangle", "Verif.Plot.aggregate_net_partial", "Verif.Plot.aggregate_balance_partial", "Verif.Plot.scaling_covers", "Verif.Plot.flows_by_class", "Verif.Plot.names_clash", "Verif.Plot.colours_shift", "Verif.Plot.flow_ignored"], "note": "Areas, angles, arrows, widths and net flows are proved; colours, joined names and the argument flow fail in the cases of the witnesses."},
  {"property": "C130", "status": "partial", "theorems": ["Verif.Plot.digits_partial", "Verif.Plot.label_value", "Verif.Plot.label_range", "Verif.Plot.legend_entries", "Verif.Plot.digits_cut", "Verif.Plot.unit_taken_apart"], "note": "Labels are proved for all values and units; digits behind the point are cut off for numbers above one."},
  {"property": "C131", "status": "proved", "theorems": ["Verif.Opt.Whole.Snap.rolling_exact", "Verif.Opt.Whole.Snap.snap_iff", "Verif.Opt.Whole.Snap.window_snap", "Verif.Opt.Whole.Snap.best_snap"], "note": "For networks without storage, ramp limits, commitment, energy sums and capacities to be optimised, with linear costs."},
  {"property": "C132", "status": "proved", "theorems": ["Verif.Opt.Whole.Weights.representative", "Verif.Opt.Whole.Weights.rules_expand", "Verif.Opt.Whole.Weights.rules_average", "Verif.Opt.Whole.Weights.alike_cost", "Verif.Opt.Whole.Weights.rules_in", "Verif.Opt.Whole.Weights.average_total"], "note": "both directions and equality of the costs, for the problem handed to the solver"},
  {"property": "C133", "status": "partial", "theorems": ["Verif.Cluster.Optimum.cluster_bound_partial", "Verif.Cluster.Optimum.merge_exact", "Verif.Cluster.Optimum.cluster_lower", "Verif.Cluster.Optimum.cluster_upper", "Verif.Cluster.Optimum.cluster_parts", "Verif.Cluster.Optimum.Demo.average_costs_dearer"], "note": "The bound and the equality are proved as long as generators that are merged have the same marginal costs; otherwise merged generators have average costs and the clustered network can cost more, as shown by an example. Links, transformers, storage and extendable capacities are not covered; the clustered optimum is without loop rows."},
  {"property": "C134", "status": "partial", "theorems": ["Verif.Cluster.Busmaps.kmeans_busmap", "Verif.Cluster.Busmaps.kmeans_ok_iff", "Verif.Cluster.Busmaps.kmeans_same_place", "Verif.Cluster.Busmaps.hac_busmap_partial", "Verif.Cluster.Busmaps.graph_edges", "Verif.Cluster.Busmaps.graph_weight_partial", "Verif.Cluster.Busmaps.modularity_busmap", "Verif.Cluster.Busmaps.clustering_buses", "Verif.Cluster.Busmaps.part_refused", "Verif.Cluster.Busmaps.Demo.fractions_lost", "Verif.Cluster.Busmaps.Demo.features_by_position", "Verif.Cluster.Busmaps.Demo.unknown_bus_labelled", "Verif.Cluster.Busmaps.Demo.connections_lost", "Verif.Cluster.Busmaps.Demo.parallel_not_added"], "note": "Proved for k-means, for the graph and the communities of modularity and for the clustered network. Hierarchical clustering only for known buses, features in the order of the buses and a class of branches visited last that has an active one; the weights of the graph only without parallel lines: the code violates the rest (witnesses). The libraries are parameters."},
  {"property": "C135", "status": "proved", "theorems": ["Verif.Opt.Whole.Rent.rent_nonneg", "Verif.Opt.Whole.Rent.surplus", "Verif.Opt.Whole.Rent.same_price", "Verif.Opt.Whole.Rent.one_price", "Verif.Opt.Whole.Rent.radial_price", "Verif.Opt.Whole.Rent.law_homogeneous", "Verif.Opt.Whole.Rent.law_silent", "Verif.Opt.Whole.Rent.law_elsewhere", "Verif.Opt.Whole.Rent.Demo.against_prices"], "note": "Whole problem with the voltage law; no losses, no set points of flows."},
  {"property": "C136", "status": "partial", "theorems": ["Verif.Plot.Charts.chart_shows_partial", "Verif.Plot.Charts.drawn_sum", "Verif.Plot.Charts.drawn_mean", "Verif.Plot.Charts.drawn_points", "Verif.Plot.Charts.drawn_iff", "Verif.Plot.Charts.parameters", "Verif.Plot.Charts.asked", "Verif.Plot.Charts.call_kind", "Verif.Plot.Charts.map_legends", "Verif.Plot.Charts.flow_alone_refused", "Verif.Plot.Charts.line_is_mean", "Verif.Plot.Charts.bar_is_mean", "Verif.Plot.Charts.unknown_refused", "Verif.Plot.Charts.stacks_of_signs"], "note": "If no column besides component and snapshot is shown, the statistic is grouped by carrier although carriers are not shown: lines and bars draw the mean over carriers (line_is_mean, bar_is_mean). Turning flows on a map on or off alone is refused because of the default legend (flow_alone_refused). Colours, box and violin plots and histograms are not modelled."},
  {"property": "C137", "status": "proved", "theorems": ["Verif.Opt.Whole.Shares.shares_optimum", "Verif.Opt.Whole.Shares.rules_shared", "Verif.Opt.Whole.Shares.rules_whole", "Verif.Opt.Whole.Shares.cost_whole", "Verif.Opt.Whole.Shares.cost_shared", "Verif.Opt.Whole.Shares.supply_whole", "Verif.Opt.Whole.Shares.spread_iff", "Verif.Opt.Whole.Shares.whole_shared"], "note": "over an ordered field; solver optimum assumed given; modules, commitment and quadratic costs are excluded because the property fails for them (whole numbers, squares)"},
  {"property": "C138", "status": "proved", "theorems": ["Verif.Opt.Whole.Emissions.limit_is_price", "Verif.Opt.Whole.Emissions.price_is_limit", "Verif.Opt.Whole.Emissions.higher_price", "Verif.Opt.Whole.Emissions.tighter_limit", "Verif.Opt.Whole.Emissions.limit_row", "Verif.Opt.Whole.Emissions.cost_priced", "Verif.Opt.Whole.Emissions.levy_plain", "Verif.Opt.Whole.Emissions.levy_weights", "Verif.Opt.Whole.Emissions.best_of_solved"], "note": "over an ordered field, for linear problems whose optimum and duals are given; the limit is the model of define_primary_energy_limit; storage must be cyclic or free of emissions"},
  {"property": "C139", "status": "partial", "theorems": ["Verif.Graph.Sub.bus_once", "Verif.Graph.Sub.port_once", "Verif.Graph.Sub.port_lost", "Verif.Graph.Sub.branch_once", "Verif.Graph.Sub.buses_together", "Verif.Graph.Sub.ports_together", "Verif.Graph.Sub.branches_together", "Verif.Graph.Sub.shown_together_partial", "Verif.Graph.Sub.series_shown", "Verif.Graph.Sub.branches_shown", "Verif.Graph.Sub.iterate_supported", "Verif.Graph.Sub.iterate_all_fails", "Verif.Graph.Sub.read_only", "Verif.Graph.Sub.new_port", "Verif.Graph.Sub.new_bus", "Verif.Graph.Sub.out_of_service_shown"], "note": "violated: iterate_components without arguments always ends with an error, a line out of service is shown without its other end; the connection of what is shown together needs the class visited last to have a branch in service (C20)"},
  {"property": "C140", "status": "proved", "theorems": ["Verif.Opt.Whole.Commit.rules_on", "Verif.Opt.Whole.Commit.rules_off", "Verif.Opt.Whole.Commit.cost_on", "Verif.Opt.Whole.Commit.cost_off", "Verif.Opt.Whole.Commit.freedom", "Verif.Opt.Whole.Commit.no_gain", "Verif.Opt.Whole.Commit.nothing_changes", "Verif.Opt.Whole.Commit.must_run", "Verif.Opt.Whole.Commit.starts_faster", "Verif.Opt.Whole.Commit.must_rest"], "note": "About the whole problem of C126 in one run over all snapshots (rolling false) without the linearised commitment. Statuses of selected units are 0 or 1. Ramp limits of the selected units are constant in time (series are not looked up for committable units, see C84). must_run, starts_faster and must_rest show that each of the conditions is needed."},
  {"property": "C141", "status": "proved", "theorems": ["Verif.Opt.Whole.Statics.cost_raise", "Verif.Opt.Whole.Statics.rules_raise", "Verif.Opt.Whole.Statics.bounds", "Verif.Opt.Whole.Statics.less_used", "Verif.Opt.Whole.Statics.gen_hour", "Verif.Opt.Whole.Statics.link_hour", "Verif.Opt.Whole.Statics.store_hour", "Verif.Opt.Whole.Statics.unit_hour", "Verif.Opt.Whole.Statics.gens_energy", "Verif.Opt.Whole.Statics.links_energy", "Verif.Opt.Whole.Statics.stores_energy", "Verif.Opt.Whole.Statics.units_energy", "Verif.Opt.Whole.Statics.gen_capacity", "Verif.Opt.Whole.Statics.link_capacity", "Verif.Opt.Whole.Statics.store_capacity", "Verif.Opt.Whole.Statics.unit_capacity", "Verif.Opt.Whole.Statics.line_capacity", "Verif.Opt.Whole.Statics.trafo_capacity", "Verif.Opt.Whole.Statics.concave", "Verif.Opt.Whole.Statics.loads_bounds", "Verif.Opt.Whole.Statics.prices_follow", "Verif.Opt.Whole.Statics.price_follows", "Verif.Opt.Whole.Statics.loads_convex"], "note": "For problems without quadratic costs (C164 for those). The part about loads is about solutions with duals (linear problems)."},
  {"property": "C142", "status": "partial", "theorems": ["Verif.PowerFlow.Flat.first_step_is_lpf_partial", "Verif.PowerFlow.Flat.first_step", "Verif.PowerFlow.Flat.flow_near", "Verif.PowerFlow.Flat.radial_flows", "Verif.PowerFlow.Flat.cut", "Verif.PowerFlow.Flat.t_model_differs", "Verif.PowerFlow.Flat.t_model_reactance", "Verif.PowerFlow.Flat.tap_differs", "Verif.PowerFlow.Flat.flow_in_units"], "note": "Fails for transformers with the model t and a susceptance: the reactance of the linear power flow is written before the T model is converted (t_model_differs). Proved for all others whose tap is on side 0 or 1; radial_flows holds for every model."},
  {"property": "C143", "status": "partial", "theorems": ["Verif.Opt.Whole.Eras.one_period_partial", "Verif.Opt.Whole.Eras.weights_scale_partial", "Verif.Opt.Whole.Eras.best_periods", "Verif.Opt.Whole.Eras.weights_irrelevant", "Verif.Opt.Whole.Eras.newcomer_ramps", "Verif.Opt.Whole.Eras.starts_not_weighted", "Verif.Opt.Whole.Eras.ramps_link_periods", "Verif.Opt.Whole.Eras.quad_one_period_partial", "Verif.Opt.Whole.Eras.quad_weights_scale_partial", "Verif.Opt.Whole.Eras.quad_best_periods", "Verif.Opt.Whole.Eras.quad_weights_irrelevant"], "note": "One period, common factors of the weights and periods without links, for all networks with linear costs, and with quadratic costs as well (quad_*). Costs of start-ups and shut-downs are not weighted by period in the code (starts_not_weighted), so that the first two parts need them to be 0 (or a weight of 1); ramp limits hold across the boundary of periods (ramps_link_periods)."},
  {"property": "C144", "status": "proved", "theorems": ["Verif.Opt.Whole.Turn.order_free", "Verif.Opt.Whole.Turn.year_begins_anywhere", "Verif.Opt.Whole.Turn.rotation_exists", "Verif.Opt.Whole.Turn.ramps_not_cyclic"], "note": "Over the whole problem of C107 with arbitrary further rows, renamed with the snapshots. ramps_not_cyclic records that ramp limits never hold from the last snapshot to the first one, so they are excluded."},
  {"property": "C145", "status": "proved", "theorems": ["Verif.Opt.Whole.LossPrice.losses_tight", "Verif.Opt.Whole.LossPrice.losses_close", "Verif.Opt.Whole.LossPrice.losses_burn", "Verif.Opt.Whole.LossPrice.price_rises", "Verif.Opt.Whole.LossPrice.earned_nonneg", "Verif.Opt.Whole.LossPrice.surplus", "Verif.Opt.Whole.LossPrice.Demo.losses_overstated"], "note": "Over the whole model with losses; tight losses need a positive mean price, and with negative prices losses are at their bound (witness)."},
  {"property": "C146", "status": "proved", "theorems": ["Verif.Opt.Whole.Recast.exchange_best", "Verif.Opt.Whole.Recast.exchange_solver", "Verif.Opt.Whole.Recast.line_as_link", "Verif.Opt.Whole.Recast.load_as_generator", "Verif.Opt.Whole.Recast.generator_as_fuel"], "note": "Over the rules of the whole problem (C126). Quantifier: the new link or generator must not change whether ramp limits of the others count (finding of C114), and the store has the weightings of generators."},
  {"property": "C147", "status": "partial", "theorems": ["Verif.Access.last_write", "Verif.Access.names_agree", "Verif.Access.items_one_by_one", "Verif.Access.as_components_own", "Verif.Access.attrs_by_class", "Verif.Access.attrs_kept", "Verif.Access.box_attr", "Verif.Access.assigned_not_found", "Verif.Access.assigned_found_partial", "Verif.Access.class_name_unknown_to_dict", "Verif.Access.contains_raises", "Verif.Access.values_hidden", "Verif.Access.ctype_equivalence", "Verif.Access.standard_types_ignored", "Verif.Access.ctype_eq_iff"], "note": "proved for all ways to read and write tables of the fifteen classes; that what is assigned to n.components under a name is found again is false for names of classes, proved for exactly the other names"},
  {"property": "C148", "status": "partial", "theorems": ["Verif.Geo.length_values", "Verif.Geo.long_unique", "Verif.Geo.length_geometry", "Verif.Geo.assigned_lost", "Verif.Geo.not_assigns"], "note": "values proved for all inputs; that the result can be assigned to the table of lines is false"},
  {"property": "C149", "status": "partial", "theorems": ["Verif.Opt.Whole.Alternatives.ran_iff", "Verif.Opt.Whole.Alternatives.alternatives_bracket", "Verif.Opt.Whole.Alternatives.alternatives_between", "Verif.Opt.Whole.Alternatives.slack_range", "Verif.Opt.Whole.Alternatives.no_slack", "Verif.Opt.Whole.Alternatives.runs_within_partial", "Verif.Opt.Whole.Alternatives.not_within"], "note": "one run: proved; several runs on one network: false with the slack of one run (witness), proved with the product of slacks"},
  {"property": "C150", "status": "partial", "theorems": ["Verif.Opt.Whole.Coarse.means_plan", "Verif.Opt.Whole.Coarse.means_lower_partial", "Verif.Opt.Whole.Coarse.not_lower_losses", "Verif.Opt.Whole.Coarse.not_lower_prices"], "note": "Proved for units without ramp limits and commitment, storage without standing losses and costs constant within a block; with standing losses or varying costs the bound is refuted by witnesses. Calendar arithmetic of resampling is not modelled."},
  {"property": "C151", "status": "partial", "theorems": ["Verif.Opt.Whole.Curve.convex_partial", "Verif.Opt.Whole.Curve.steeper_partial", "Verif.Opt.Whole.Curve.concave", "Verif.Opt.Whole.Curve.not_convex", "Verif.Opt.Whole.Curve.plan_mix", "Verif.Opt.Whole.Curve.cost_mix"], "note": "Convex in loads and right-hand sides where nothing has to be whole, concave in costs always; with whole modules convexity fails (not_convex)."},
  {"property": "C152", "status": "partial", "theorems": ["Verif.Plot.Interactive.own_lines", "Verif.Plot.Interactive.drawn_iff", "Verif.Plot.Interactive.own_view_partial", "Verif.Plot.Interactive.first_view_stays", "Verif.Plot.Interactive.keeps_data", "Verif.Plot.Interactive.ignores_coordinates", "Verif.Plot.Interactive.static_coordinates", "Verif.Plot.Interactive.layouts_alike", "Verif.Plot.Interactive.own_markers", "Verif.Plot.Interactive.static_lines_partial", "Verif.Plot.Interactive.explore_rows", "Verif.Plot.Interactive.placed_partial", "Verif.Plot.Interactive.given_unused", "Verif.Plot.Interactive.not_own_views", "Verif.Plot.Interactive.not_lasting_views", "Verif.Plot.Interactive.not_at_coordinates", "Verif.Plot.Interactive.not_keeps", "Verif.Plot.Interactive.not_placed", "Verif.Plot.Interactive.own_middles", "Verif.Plot.Interactive.explore_layers"], "note": "Lines are shown between their own buses in their own style, and views are as asked with parameters of their own; views without, coordinates, kept lines and coordinate systems are not as stated, see the not_ theorems."},
  {"property": "C153", "status": "partial", "theorems": ["Verif.Geo.Crs.shapes_stay", "Verif.Geo.Crs.buses_stay_partial", "Verif.Geo.Crs.bus_lands", "Verif.Geo.Crs.there_and_back", "Verif.Geo.Crs.one_system", "Verif.Geo.Crs.adds", "Verif.Geo.Crs.set_iff", "Verif.Geo.Crs.set_nothing", "Verif.Geo.Crs.reloads", "Verif.Geo.Crs.slices", "Verif.Geo.Crs.copies_partial", "Verif.Geo.Crs.not_buses_stay", "Verif.Geo.Crs.not_settable", "Verif.Geo.Crs.not_copies"], "note": "Shapes, files, slices and the way back are as stated; buses move when axes are in another order, the setter refuses, and copies fail outside the default system, see the not_ theorems."},
  {"property": "C154", "status": "proved", "theorems": ["Verif.Opt.Whole.Exist.best_exists", "Verif.Opt.Whole.Exist.prices_exist", "Verif.Opt.Whole.Exist.priced_best", "Verif.Opt.Whole.Exist.no_plan", "Verif.Opt.Whole.Exist.three_ways", "Verif.Opt.Whole.Exist.cost_nonneg", "Verif.Opt.Whole.Exist.thrifty_best"], "note": "Over the whole problem of C107 with linear costs and commitment or modules taken as continuous; Farkas.lean proves by elimination of variables, over any ordered field, that bounded linear problems have optima and optima have duals."},
  {"property": "C155", "status": "proved", "theorems": ["Verif.Opt.Whole.Exist.market", "Verif.Opt.Whole.Exist.welfare", "Verif.Opt.Whole.Exist.same_prices", "Verif.Opt.Whole.Exist.not_whole_prices"], "note": "market allows further rows that all assets share; welfare is per asset and without such rows. not_whole_prices is the witness that whole numbers break it."},
  {"property": "C156", "status": "proved", "theorems": ["Verif.Opt.Whole.Exist.binary_best", "Verif.Opt.Whole.Exist.commitment_best", "Verif.Opt.Whole.Exist.commitment_thrifty", "Verif.Opt.Whole.Exist.commitment_prices", "Verif.Opt.Whole.Exist.switches_iff"], "note": "About the whole problem of Whole.lean with statuses, start-ups and shut-downs of committable units 0 or 1; module sizes taken as continuous."},
  {"property": "C157", "status": "partial", "theorems": ["Verif.Opt.Whole.Exist.shed_plan", "Verif.Opt.Whole.Exist.shed_always", "Verif.Opt.Whole.Exist.shed_price", "Verif.Opt.Whole.Exist.shed_cap", "Verif.Opt.Whole.Exist.shed_needless", "Verif.Opt.Whole.Exist.shed_rules", "Verif.Opt.Whole.Exist.shed_total", "Verif.Opt.Whole.Exist.shed_names"], "note": "About the whole problem of Whole.lean, one window. Asked for: names of the new generators are free, ramp limits of generators count before exactly if afterwards (C114), further rows do not count shedding, and the problem with shedding can be set up."},
  {"property": "C158", "status": "proved", "theorems": ["Verif.Opt.Whole.Quad.solver_least", "Verif.Opt.Whole.Quad.least_tangent", "Verif.Opt.Whole.Quad.quad_prices", "Verif.Opt.Whole.Quad.quad_market", "Verif.Opt.Whole.Quad.quad_welfare", "Verif.Opt.Whole.Quad.answered_iff", "Verif.Opt.Whole.Quad.answered_slope", "Verif.Opt.Whole.Quad.quad_merit", "Verif.Opt.Whole.Quad.quad_load", "Verif.Opt.Whole.Quad.quad_unique", "Verif.Opt.Whole.Quad.quad_course"], "note": "prices and duals with quadratic costs; existence of an optimum is not part of it"},
  {"property": "C159", "status": "partial", "theorems": ["Verif.Stats.Groupers.adds_spec", "Verif.Stats.Groupers.own_found", "Verif.Stats.Groupers.others_same", "Verif.Stats.Groupers.not_none_notices", "Verif.Stats.Groupers.list_broken", "Verif.Stats.Groupers.add_broken", "Verif.Stats.Groupers.hidden_lost", "Verif.Stats.Groupers.column", "Verif.Stats.Groupers.column_hidden", "Verif.Stats.Groupers.label_attr", "Verif.Stats.Groupers.label_busCarrier", "Verif.Stats.Groupers.label_own", "Verif.Stats.Groupers.every_label", "Verif.Stats.Groupers.levels", "Verif.Stats.Groupers.subscript_same", "Verif.Stats.Groupers.dot_in_list", "Verif.Stats.Groupers.dot_same_partial", "Verif.Stats.Groupers.dot_raises", "Verif.Stats.Groupers.not_dot_same", "Verif.Stats.Groupers.old_same", "Verif.Stats.Groupers.old_raises", "Verif.Stats.Groupers.tuple_refused", "Verif.Stats.Groupers.old_one"], "note": "labels, own groupers and lists proved; groupers.bus, name, country, location and unit as functions raise (dot_raises), and an own carrier changes bus_carrier"},
  {"property": "C160", "status": "proved", "theorems": ["Verif.Opt.Farkas.attained_squares", "Verif.Opt.Farkas.squares_optimum", "Verif.Opt.Whole.Quad.squares_coef", "Verif.Opt.Whole.Quad.least_exists", "Verif.Opt.Whole.Quad.quad_three_ways", "Verif.Opt.Whole.Quad.quad_thrifty", "Verif.Opt.Whole.Quad.equilibrium_exists"], "note": "about the whole problem of Whole.lean over the real numbers, with linear relaxation of commitment"},
  {"property": "C161", "status": "partial", "theorems": ["Verif.Stats.BalanceUnit.accepted", "Verif.Stats.BalanceUnit.unit_named", "Verif.Stats.BalanceUnit.dependent_iff", "Verif.Stats.BalanceUnit.unit_of_ports", "Verif.Stats.BalanceUnit.not_patterns", "Verif.Stats.BalanceUnit.pattern_raises", "Verif.Stats.BalanceUnit.list_raises"], "note": "unit proved for all accepted selections; patterns and carriers not in use raise (witness)"},
  {"property": "C162", "status": "partial", "theorems": ["Verif.Network.Columns.standard_first", "Verif.Network.Columns.same_columns", "Verif.Network.Columns.mem_step", "Verif.Network.Columns.own_there", "Verif.Network.Columns.own_stays", "Verif.Network.Columns.own_lost", "Verif.Network.Columns.reproducible_partial", "Verif.Network.Columns.not_reproducible"], "note": "Own columns come in the order in which Python lists a set, so two of them make runs differ; proved for at most one."},
  {"property": "C163", "status": "partial", "theorems": ["Verif.Network.Weightings.rows_fit", "Verif.Network.Weightings.columns_stay_partial", "Verif.Network.Weightings.not_columns_stay", "Verif.Network.Weightings.sets_fit", "Verif.Network.Weightings.leaves_fit", "Verif.Network.Weightings.period_rows_partial", "Verif.Network.Weightings.not_period_rows", "Verif.Network.Weightings.snapshots_value", "Verif.Network.Weightings.periods_value", "Verif.Network.Weightings.period_value", "Verif.Network.Weightings.series_value", "Verif.Network.Weightings.period_series_value", "Verif.Network.Weightings.hours_step", "Verif.Network.Weightings.hours_last", "Verif.Network.Weightings.hours_single", "Verif.Network.Weightings.hours_sum", "Verif.Network.Weightings.timed_value"], "note": "Violated for set_snapshots with periods (no rows of period weightings) and for assigned tables that lack columns; proved otherwise. rows_fit asks for no empty list of snapshots."},
  {"property": "C164", "status": "proved", "theorems": ["Verif.Opt.Whole.Quad.least_gap", "Verif.Opt.Whole.Quad.quad_less_used", "Verif.Opt.Whole.Quad.quad_gens", "Verif.Opt.Whole.Quad.quad_reacts", "Verif.Opt.Whole.Quad.load_gap", "Verif.Opt.Whole.Quad.quad_prices_follow", "Verif.Opt.Whole.Quad.quad_price_follows", "Verif.Opt.Whole.Quad.quad_shed_cap", "Verif.Opt.Whole.Quad.quad_shed", "Verif.Opt.Whole.Quad.quad_bounds", "Verif.Opt.Whole.Quad.quad_concave", "Verif.Opt.Whole.Quad.quad_loads_convex"], "note": "About the whole problem of Whole.lean with quadratic costs; the parts about prices are about solutions with duals, the existence with shedding is over the real numbers."},
  {"property": "C165", "status": "partial", "theorems": ["Verif.Plot.Flows.onMap_iff", "Verif.Plot.Flows.only_branches", "Verif.Plot.Flows.all_without", "Verif.Plot.Flows.with_flows", "Verif.Plot.Flows.same_branches_partial", "Verif.Plot.Flows.not_same_branches", "Verif.Plot.Flows.unknown_refused", "Verif.Plot.Flows.at_snapshot", "Verif.Plot.Flows.aggregated", "Verif.Plot.Flows.number", "Verif.Plot.Flows.of_series", "Verif.Plot.Flows.of_widths", "Verif.Plot.Flows.of_nothing", "Verif.Plot.Flows.one_arrow", "Verif.Plot.Flows.number_is_snapshot", "Verif.Plot.Flows.dict_raises"], "note": "That the branches stay on the map is false without columns in p0 (witness), proved if p0 has a column for every branch; flows of arrows proved for all arguments."},
  {"property": "C166", "status": "partial", "theorems": ["Verif.Cluster.OnePort.lone_kept_partial", "Verif.Cluster.OnePort.agreed", "Verif.Cluster.OnePort.no_rule_once", "Verif.Cluster.OnePort.no_rule_lost", "Verif.Cluster.OnePort.quadratic_dearer", "Verif.Cluster.OnePort.quadratic_even", "Verif.Cluster.OnePort.GroupDemo.not_lone_kept", "Verif.Cluster.OnePort.GroupDemo.quadratic_doubles", "Verif.Cluster.OnePort.GroupDemo.shunt_lost"], "note": "Lone assets keep all numbers but build_year and lifetime (witness); groups keep columns without a rule once only, and quadratic costs are multiplied (witnesses)."}
]}
