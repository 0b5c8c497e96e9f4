import Verif.Access.Props
import Verif.Cluster.BusmapsProps
import Verif.Cluster.LinesProps
import Verif.Cluster.NetworkProps
import Verif.Cluster.OnePortGroupProps
import Verif.Cluster.OnePortProps
import Verif.Cluster.OptimumProps
import Verif.Cluster.StubsProps
import Verif.Common.Props
import Verif.Consistency.Props
import Verif.Equality.Props
import Verif.Geo.CrsProps
import Verif.Geo.LengthProps
import Verif.Geo.Props
import Verif.Graph.CyclesProps
import Verif.Graph.Props
import Verif.Graph.SubNetworksProps
import Verif.Graph.TreeProps
import Verif.IO.CsvProps
import Verif.IO.DemoProps
import Verif.IO.FormatsProps
import Verif.IO.NamesProps
import Verif.IO.PandapowerProps
import Verif.IO.Props
import Verif.IO.PypowerProps
import Verif.Network.ColumnsProps
import Verif.Network.MergeCallProps
import Verif.Network.MergeProps
import Verif.Network.Props
import Verif.Network.RenameProps
import Verif.Network.TransferProps
import Verif.Network.WeightingsProps
import Verif.Opt.AccessorProps
import Verif.Opt.ActivityProps
import Verif.Opt.AfterFlowProps
import Verif.Opt.AlternativesProps
import Verif.Opt.CapacityProps
import Verif.Opt.CoarseProps
import Verif.Opt.CommitProps
import Verif.Opt.CurveProps
import Verif.Opt.CycleProps
import Verif.Opt.DiscreteProps
import Verif.Opt.DualsProps
import Verif.Opt.EmissionProps
import Verif.Opt.ExistProps
import Verif.Opt.ExtendProps
import Verif.Opt.GlobalEnergyProps
import Verif.Opt.GlobalProps
import Verif.Opt.IterativeProps
import Verif.Opt.JoinProps
import Verif.Opt.KvlProps
import Verif.Opt.LoosenProps
import Verif.Opt.LossPriceProps
import Verif.Opt.LossesProps
import Verif.Opt.NamesProps
import Verif.Opt.NodalProps
import Verif.Opt.ObjectiveProps
import Verif.Opt.OffProps
import Verif.Opt.OnOffProps
import Verif.Opt.OrderProps
import Verif.Opt.PeriodProps
import Verif.Opt.QuadraticExistProps
import Verif.Opt.QuadraticPeriodProps
import Verif.Opt.QuadraticProps
import Verif.Opt.QuadraticStaticsProps
import Verif.Opt.RecastFuelProps
import Verif.Opt.RecastProps
import Verif.Opt.RentProps
import Verif.Opt.ReplaceProps
import Verif.Opt.ResultsProps
import Verif.Opt.RollingProps
import Verif.Opt.RollingWholeProps
import Verif.Opt.RulesProps
import Verif.Opt.SecurityProps
import Verif.Opt.SharesProps
import Verif.Opt.ShedProps
import Verif.Opt.SnapshotProps
import Verif.Opt.StaticsProps
import Verif.Opt.StorageProps
import Verif.Opt.TurnProps
import Verif.Opt.UnitProps
import Verif.Opt.UnitsProps
import Verif.Opt.WeightingProps
import Verif.Opt.WelfareProps
import Verif.Opt.WholeProps
import Verif.Options.Props
import Verif.Plot.ChartsProps
import Verif.Plot.FlowsProps
import Verif.Plot.InteractiveProps
import Verif.Plot.LegendProps
import Verif.Plot.MapsProps
import Verif.Ports.Props
import Verif.PowerFlow.AdmittanceProps
import Verif.PowerFlow.FlatProps
import Verif.PowerFlow.InjectionProps
import Verif.PowerFlow.JacobianProps
import Verif.PowerFlow.LinearProps
import Verif.PowerFlow.ResultsProps
import Verif.PowerFlow.SlackProps
import Verif.PowerFlow.TurnProps
import Verif.PowerFlow.TypesProps
import Verif.Registry.Props
import Verif.Stats.AggregateProps
import Verif.Stats.BalanceUnitProps
import Verif.Stats.CostProps
import Verif.Stats.ExpressionsProps
import Verif.Stats.GroupersProps
import Verif.Stats.LinExprProps

/-! Axioms used by each theorem named in `MANIFEST.json`. -/

#print axioms Verif.Options.option_context_restores_partial
#print axioms Verif.Options.option_context_duplicate_not_restored
#print axioms Verif.Options.options_refine_map
#print axioms Verif.Options.get_set_option
#print axioms Verif.Network.names_unique
#print axioms Verif.Network.tables_aligned_partial
#print axioms Verif.Network.empty_set_snapshots_breaks_alignment
#print axioms Verif.Network.import_series_fills
#print axioms Verif.Network.add_frame_partial
#print axioms Verif.Network.raising_call_changes_nothing
#print axioms Verif.Network.add_overwrite_custom_series_wipes_others
#print axioms Verif.Network.add_accepts
#print axioms Verif.Network.add_new_component
#print axioms Verif.Network.add_skips_existing_partial
#print axioms Verif.Network.add_skipped_component_gets_series
#print axioms Verif.Network.add_overwrite_keeps_stale_series
#print axioms Verif.Network.add_custom_series_ignored
#print axioms Verif.Network.remove_exact
#print axioms Verif.Network.add_remove_roundtrip
#print axioms Verif.Network.as_dense_effective
#print axioms Verif.Network.as_iter_eq_dense
#print axioms Verif.Network.set_snapshots_values_partial
#print axioms Verif.Network.set_investment_periods_flat
#print axioms Verif.Network.set_investment_periods_multi
#print axioms Verif.Network.rename_bus_partial
#print axioms Verif.Network.rename_line_raises_halfway
#print axioms Verif.Network.rename_makes_duplicates
#print axioms Verif.Network.slice_closed_partial
#print axioms Verif.Network.slice_dangling_third_port
#print axioms Verif.Network.copy_content_partial
#print axioms Verif.Network.copy_without_a_period_raises
#print axioms Verif.Network.merge_union_partial
#print axioms Verif.Network.merge_skip_bus_ignored
#print axioms Verif.Network.merge_loses_custom_series
#print axioms Verif.Network.merge_static_partial
#print axioms Verif.Network.merge_inplace_partial
#print axioms Verif.Network.merge_copy
#print axioms Verif.Network.plus_loses
#print axioms Verif.Network.not_plus
#print axioms Verif.Equality.network_equals_refl
#print axioms Verif.Equality.network_equals_symm_partial
#print axioms Verif.Equality.network_equals_trans_partial
#print axioms Verif.Equality.network_equals_content
#print axioms Verif.Equality.equals_bool_int_asymmetric
#print axioms Verif.Equality.network_equals_asymmetric
#print axioms Verif.Equality.frames_not_transitive
#print axioms Verif.Equality.empty_frames_equal
#print axioms Verif.IO.export_import_partial
#print axioms Verif.IO.export_import_same
#print axioms Verif.IO.export_error
#print axioms Verif.IO.no_buses
#print axioms Verif.IO.Csv.names_back_partial
#print axioms Verif.IO.Csv.numbers_back
#print axioms Verif.IO.Csv.texts_back_partial
#print axioms Verif.IO.Demo.default_series_lost
#print axioms Verif.IO.Demo.no_buses_lost
#print axioms Verif.IO.Demo.changed_type_lost
#print axioms Verif.IO.Demo.missing_value_filled
#print axioms Verif.IO.Demo.csv_leading_zeros
#print axioms Verif.IO.Demo.csv_na_name
#print axioms Verif.IO.Demo.csv_empty_text
#print axioms Verif.IO.Demo.csv_ports_dangle
#print axioms Verif.IO.stale_stays
#print axioms Verif.IO.stale_series_stays
#print axioms Verif.IO.Demo.stale_read
#print axioms Verif.IO.Demo.stale_series_read
#print axioms Verif.IO.Names.netcdf_decodable_partial
#print axioms Verif.IO.Names.netcdf_absent
#print axioms Verif.IO.Names.csv_decodable
#print axioms Verif.IO.Names.Demo.registry_distinguished
#print axioms Verif.IO.Names.Demo.registry_no_hyphen
#print axioms Verif.IO.Names.Demo.column_t_lost
#print axioms Verif.IO.Names.Demo.column_series_collide
#print axioms Verif.IO.Names.Demo.column_i_replaces_names
#print axioms Verif.IO.Names.Demo.series_coordinate_collide
#print axioms Verif.IO.Names.Demo.custom_class_read_twice
#print axioms Verif.IO.Names.Demo.custom_class_file
#print axioms Verif.Registry.add_partial
#print axioms Verif.Registry.refused_iff
#print axioms Verif.Registry.found_by_list_name
#print axioms Verif.Registry.not_found_by_name
#print axioms Verif.Registry.history_partial
#print axioms Verif.Registry.history_others
#print axioms Verif.Registry.history_keeps
#print axioms Verif.Registry.history_filed
#print axioms Verif.Registry.accepted_stays
#print axioms Verif.Registry.new_network
#print axioms Verif.Registry.Demo.registered_name_accepted
#print axioms Verif.Registry.Demo.type_replaced
#print axioms Verif.Registry.Demo.custom_not_found
#print axioms Verif.Registry.Demo.custom_not_in_network
#print axioms Verif.Registry.packaged_found
#print axioms Verif.Registry.loadDefaults_raises
#print axioms Verif.Graph.topology_components_partial
#print axioms Verif.Graph.topology_ignores_lines
#print axioms Verif.Graph.adjacency_counts_partial
#print axioms Verif.Graph.adjacency_drops_branches
#print axioms Verif.Graph.unknown_end_refused
#print axioms Verif.Graph.incidence_columns
#print axioms Verif.Graph.bus_controls_complete
#print axioms Verif.Graph.cycle_columns_closed_partial
#print axioms Verif.Graph.cycle_columns_span
#print axioms Verif.Graph.cycle_columns_count
#print axioms Verif.Graph.cycle_through_inactive
#print axioms Verif.PowerFlow.lpf_balance
#print axioms Verif.PowerFlow.Bred_regular
#print axioms Verif.PowerFlow.slack_generator_consistent
#print axioms Verif.PowerFlow.inactive_link_injects
#print axioms Verif.PowerFlow.inactive_slack_generator
#print axioms Verif.PowerFlow.lpf_kvl
#print axioms Verif.PowerFlow.lpf_linear
#print axioms Verif.PowerFlow.lpf_slack_independent
#print axioms Verif.PowerFlow.flows_unique
#print axioms Verif.PowerFlow.ptdf_reproduces_lpf
#print axioms Verif.PowerFlow.bodf_exact
#print axioms Verif.PowerFlow.branchPtdf_ne_one
#print axioms Verif.PowerFlow.contingency_inside_partial
#print axioms Verif.PowerFlow.contingency_others_nan
#print axioms Verif.PowerFlow.contingency_isolated_bus_raises
#print axioms Verif.PowerFlow.contingency_inactive_branch_raises
#print axioms Verif.PowerFlow.AC.newton_honest
#print axioms Verif.PowerFlow.AC.admittance_pi_model
#print axioms Verif.PowerFlow.AC.piCircuit_unique
#print axioms Verif.PowerFlow.AC.admittance_symmetric
#print axioms Verif.PowerFlow.AC.admittance_row_sums
#print axioms Verif.PowerFlow.AC.inactive_shunt_counts
#print axioms Verif.PowerFlow.Types.t_model_equivalent
#print axioms Verif.PowerFlow.Types.wye_delta_equivalent
#print axioms Verif.PowerFlow.Slack.bus_shares
#print axioms Verif.PowerFlow.AC.distributed_bus_adjustments
#print axioms Verif.PowerFlow.Slack.generator_adjustments_partial
#print axioms Verif.PowerFlow.Slack.single_bus_p_set_partial
#print axioms Verif.PowerFlow.Slack.zero_p_nom_raises
#print axioms Verif.PowerFlow.Slack.dict_generator_weights_raise
#print axioms Verif.PowerFlow.Slack.missing_generator_weight_raises
#print axioms Verif.PowerFlow.Slack.p_nom_opt_uses_p_nom
#print axioms Verif.PowerFlow.Slack.zero_weights_accepted
#print axioms Verif.PowerFlow.Slack.single_bus_capacity_nan
#print axioms Verif.PowerFlow.Types.line_types
#print axioms Verif.PowerFlow.Types.line_types_idempotent
#print axioms Verif.PowerFlow.Types.trafo_types
#print axioms Verif.PowerFlow.Types.trafo_types_idempotent
#print axioms Verif.Opt.active_assets_partial
#print axioms Verif.Opt.activity_mask
#print axioms Verif.Opt.unknown_period_accepted
#print axioms Verif.Opt.bounds_documented
#print axioms Verif.Opt.bounds_reindexed
#print axioms Verif.Opt.Nodal.nodal_balance
#print axioms Verif.Opt.Nodal.split_same_partial
#print axioms Verif.Opt.Nodal.split_raises
#print axioms Verif.Opt.dispatch_limits
#print axioms Verif.Opt.start_shut_track
#print axioms Verif.Opt.min_up_time
#print axioms Verif.Opt.min_up_relaxed
#print axioms Verif.Opt.min_down_time
#print axioms Verif.Opt.min_down_relaxed
#print axioms Verif.Opt.rolling_state_partial
#print axioms Verif.Opt.rolling_without_min_up
#print axioms Verif.Opt.ramp_limits_partial
#print axioms Verif.Opt.ramp_all_ones
#print axioms Verif.Opt.ramp_series_of_committed_ignored
#print axioms Verif.Opt.storage_telescopes
#print axioms Verif.Opt.cyclic_store_nets_zero
#print axioms Verif.Opt.storage_creates_no_energy
#print axioms Verif.Opt.storage_periods_partial
#print axioms Verif.Opt.default_store_restarts
#print axioms Verif.Opt.cyclic_store_closed_by_initial_flag
#print axioms Verif.Opt.true_loss_admitted
#print axioms Verif.Opt.loss_lower_bound
#print axioms Verif.Opt.loss_needs_finite_rating
#print axioms Verif.Opt.Kvl.kvl_angles_partial
#print axioms Verif.Opt.Kvl.kvl_tied
#print axioms Verif.Opt.Kvl.kvl_excludes
#print axioms Verif.Opt.Capacity.capacity_bounds
#print axioms Verif.Opt.Global.primary_energy_partial
#print axioms Verif.Opt.Global.primary_other_period
#print axioms Verif.Opt.Global.primary_counts_idle
#print axioms Verif.Opt.Global.primary_not_enforced
#print axioms Verif.Opt.Global.primary_counts_earlier
#print axioms Verif.Opt.Global.operational_limit_partial
#print axioms Verif.Opt.Global.operational_period_raises
#print axioms Verif.Opt.Global.tech_limit_partial
#print axioms Verif.Opt.Global.column_sound
#print axioms Verif.Opt.Global.column_complete
#print axioms Verif.Opt.Global.bus_column
#print axioms Verif.Opt.Global.tech_limit_ignored
#print axioms Verif.Opt.Global.tech_limit_mixed
#print axioms Verif.Opt.Global.carriers_read
#print axioms Verif.Opt.Global.volume_limit_partial
#print axioms Verif.Opt.Global.cost_limit_partial
#print axioms Verif.Opt.Global.volume_not_enforced
#print axioms Verif.Opt.Global.growth_limit_partial
#print axioms Verif.Opt.Global.growth_counts_retired
#print axioms Verif.Opt.Global.growth_mixed
#print axioms Verif.Opt.Objective.objective_is_cost_partial
#print axioms Verif.Opt.Objective.event_costs_ignored
#print axioms Verif.Opt.Objective.spill_cost_raises
#print axioms Verif.Opt.Results.results_balance_partial
#print axioms Verif.Opt.Results.inactive_load_counts
#print axioms Verif.Opt.Results.transformer_losses_missing
#print axioms Verif.Opt.Results.inactive_line_nan
#print axioms Verif.Opt.Accessor.fix_keeps_bounds
#print axioms Verif.Opt.Accessor.fix_keeps_unit_partial
#print axioms Verif.Opt.Accessor.fix_committable_infeasible
#print axioms Verif.Opt.Accessor.fix_losses_infeasible
#print axioms Verif.Opt.Accessor.fix_set_raises
#print axioms Verif.Opt.Accessor.load_shedding
#print axioms Verif.Opt.Accessor.shedding_carrier_unknown
#print axioms Verif.Opt.Discrete.discretized_partial
#print axioms Verif.Opt.Discrete.discretized_idempotent
#print axioms Verif.Opt.Discrete.near_maximum_rounds_down
#print axioms Verif.Opt.Discrete.fraction_skips_multiple
#print axioms Verif.Opt.Discrete.nothing_needed_builds_maximum
#print axioms Verif.Opt.Discrete.threshold_zero_exceeds_maximum
#print axioms Verif.Opt.Iterative.expand_keeps_partial
#print axioms Verif.Opt.Iterative.expand_restores
#print axioms Verif.Opt.Iterative.loop_count
#print axioms Verif.Opt.Iterative.objectives_sum
#print axioms Verif.Opt.Iterative.first_iteration_zero
#print axioms Verif.Opt.Iterative.min_iterations_off_by_one
#print axioms Verif.Opt.Iterative.fixed_lines_changed
#print axioms Verif.Opt.Iterative.discretised_impedance_stale
#print axioms Verif.Opt.Iterative.total_excludes_lines
#print axioms Verif.Opt.Iterative.expand_leaves_fixed
#print axioms Verif.Opt.Security.security_rows
#print axioms Verif.Opt.Security.security_exists
#print axioms Verif.Opt.Security.security_covers
#print axioms Verif.Opt.Security.resolve_lines
#print axioms Verif.Opt.Security.pairs_raise
#print axioms Verif.Opt.Security.inactive_branch_raises
#print axioms Verif.Opt.Rolling.rolling_windows
#print axioms Verif.Opt.Rolling.rolling_levels_partial
#print axioms Verif.Opt.Rolling.negative_overlap
#print axioms Verif.Opt.Rolling.standing_loss_skipped
#print axioms Verif.Opt.Rolling.cyclic_per_window
#print axioms Verif.Stats.budget_partial
#print axioms Verif.Stats.budget_iff
#print axioms Verif.Stats.alt_value
#print axioms Verif.Stats.alt_direction
#print axioms Verif.Stats.sense_other
#print axioms Verif.Stats.series_weights_raise
#print axioms Verif.Stats.default_weights_raise
#print axioms Verif.Stats.CostDemo.link_opex_missing
#print axioms Verif.Cluster.OnePort.oneport_totals
#print axioms Verif.Cluster.OnePort.oneport_totals_series
#print axioms Verif.Cluster.OnePort.oneport_available
#print axioms Verif.Cluster.OnePort.oneport_bounds
#print axioms Verif.Cluster.OnePort.oneport_one_row
#print axioms Verif.Cluster.OnePort.oneport_others_kept
#print axioms Verif.Cluster.OnePort.oneport_raises
#print axioms Verif.Cluster.OnePort.Demo.initial_energy_lost
#print axioms Verif.Cluster.OnePort.Demo.initial_energy_raises
#print axioms Verif.Cluster.OnePort.Demo.unmapped_kept
#print axioms Verif.Cluster.OnePort.buses_ignored
#print axioms Verif.Cluster.OnePort.merged_always_built
#print axioms Verif.Cluster.OnePort.oneport_rules
#print axioms Verif.Cluster.OnePort.oneport_default
#print axioms Verif.Cluster.Lines.lines_pairs
#print axioms Verif.Cluster.Lines.lines_linemap
#print axioms Verif.Cluster.Lines.lines_capacity
#print axioms Verif.Cluster.Lines.lines_usable
#print axioms Verif.Cluster.Lines.lines_cost
#print axioms Verif.Cluster.Lines.lines_impedance
#print axioms Verif.Cluster.Lines.lines_raises
#print axioms Verif.Cluster.Lines.Demo.voltage_mismatch
#print axioms Verif.Cluster.Lines.Demo.unset_length_scales
#print axioms Verif.Cluster.Lines.Demo.no_coordinates
#print axioms Verif.Cluster.Lines.Demo.flow_reversed
#print axioms Verif.Cluster.Lines.Demo.solved_raises
#print axioms Verif.Cluster.Network.cluster_refs_partial
#print axioms Verif.Cluster.Network.cluster_links
#print axioms Verif.Cluster.Network.Demo.third_port_dangling
#print axioms Verif.Cluster.OnePort.flatten_injective_partial
#print axioms Verif.Cluster.OnePort.oneport_names_partial
#print axioms Verif.Cluster.OnePort.flatten_collision
#print axioms Verif.Cluster.stubs_representative
#print axioms Verif.Cluster.stubs_connected
#print axioms Verif.Cluster.stubs_agree
#print axioms Verif.Cluster.stubs_none_left_partial
#print axioms Verif.Cluster.stubs_mesh_kept
#print axioms Verif.Cluster.loop_keeps_stub
#print axioms Verif.Consistency.strict_raises_partial
#print axioms Verif.Consistency.strict_error
#print axioms Verif.Consistency.strict_value_error
#print axioms Verif.Consistency.strict_refused
#print axioms Verif.Consistency.warnings_exact
#print axioms Verif.Consistency.lenient_done
#print axioms Verif.Consistency.carriers_never_strict
#print axioms Verif.Consistency.plotting_strict
#print axioms Verif.Consistency.Demo.carriers_not_strict
#print axioms Verif.Consistency.Demo.periods_plain
#print axioms Verif.Consistency.unknown_buses_exact_partial
#print axioms Verif.Consistency.Demo.empty_port_reported
#print axioms Verif.Consistency.Demo.own_column_fails
#print axioms Verif.Stats.supply_minus_withdrawal
#print axioms Verif.Stats.supply_nonneg
#print axioms Verif.Stats.grand_total
#print axioms Verif.Stats.group_value
#print axioms Verif.Stats.groupOf_labels
#print axioms Verif.Stats.missing_label_lost
#print axioms Verif.Stats.selected_rows
#print axioms Verif.Stats.ports_ignored
#print axioms Verif.Stats.ports_all
#print axioms Verif.Stats.Demo.capex_per_port
#print axioms Verif.Stats.label_iff
#print axioms Verif.Stats.refused_iff
#print axioms Verif.Stats.drop_zero_false_drops
#print axioms Verif.Stats.drop_zero_partial
#print axioms Verif.Stats.mean_weighted
#print axioms Verif.Stats.capex_split
#print axioms Verif.Stats.expanded_capacity_partial
#print axioms Verif.Stats.Demo.greenfield_expansion
#print axioms Verif.Stats.systemCost_value
#print axioms Verif.Stats.balance_vanishes
#print axioms Verif.Stats.default_groups
#print axioms Verif.Stats.total_balanced
#print axioms Verif.Stats.Demo.balance_own_weights
#print axioms Verif.Stats.Demo.balance_counts_inactive
#print axioms Verif.Geo.bbox_contains
#print axioms Verif.Geo.bounds_exact
#print axioms Verif.Geo.great_circle
#print axioms Verif.Geo.distance_comm
#print axioms Verif.Geo.distance_range
#print axioms Verif.Geo.distance_zero
#print axioms Verif.Geo.distance_self
#print axioms Verif.Geo.distance_triangle
#print axioms Verif.Geo.haversine_entry
#print axioms Verif.Geo.hav_range
#print axioms Verif.Geo.haversinePts_entry
#print axioms Verif.Common.rename_spec
#print axioms Verif.Common.alias_call
#print axioms Verif.Common.no_alias
#print axioms Verif.Common.positional_and_alias
#print axioms Verif.Common.values_kept
#print axioms Verif.Common.Demo.chain_followed
#print axioms Verif.Common.Demo.chain_not_followed
#print axioms Verif.Common.asIndex_none
#print axioms Verif.Common.asIndex_labels
#print axioms Verif.Common.asIndex_accepts
#print axioms Verif.Common.asIndex_unforced
#print axioms Verif.Common.timesteps_refused
#print axioms Verif.Common.argument_renamed
#print axioms Verif.PowerFlow.AC.pf_converged_balance
#print axioms Verif.PowerFlow.AC.jacobian_is_derivative
#print axioms Verif.Opt.ramp_rows_complete_partial
#print axioms Verif.Opt.ramp_excludes_allowed_schedule
#print axioms Verif.Opt.commitment_complete
#print axioms Verif.Opt.linearized_valid_partial
#print axioms Verif.Opt.linearized_excludes
#print axioms Verif.Opt.Kvl.lpf_reproduces_partial
#print axioms Verif.Opt.Kvl.lpf_differs
#print axioms Verif.Opt.Capacity.set_points
#print axioms Verif.Opt.Results.window_keeps
#print axioms Verif.Opt.Results.windows_keep
#print axioms Verif.Opt.Results.losses_added
#print axioms Verif.Opt.Results.window_loses_line_flows
#print axioms Verif.Opt.Results.price_is_dual
#print axioms Verif.Opt.Results.stale_price_rescaled
#print axioms Verif.Opt.Results.angles_explain_flows_partial
#print axioms Verif.Opt.Results.slack_angle_not_zero
#print axioms Verif.Opt.Accessor.branch_rating
#print axioms Verif.Opt.Accessor.storage_unit_bounds
#print axioms Verif.Opt.Accessor.plain_bounds
#print axioms Verif.Stats.selected
#print axioms Verif.Stats.selected_partial
#print axioms Verif.Stats.selected_string_partial
#print axioms Verif.Stats.carrier_by_class
#print axioms Verif.Stats.capacity_factor_range
#print axioms Verif.Stats.capacity_value
#print axioms Verif.Stats.curtailment_value
#print axioms Verif.Stats.curtailment_nonneg
#print axioms Verif.Stats.revenue_vanishes
#print axioms Verif.Stats.statistics_cost_partial
#print axioms Verif.Stats.capex_total
#print axioms Verif.Stats.installed_total
#print axioms Verif.Stats.opex_total_partial
#print axioms Verif.Stats.constant_capital
#print axioms Verif.Stats.market_value_range
#print axioms Verif.Stats.revenue_supply
#print axioms Verif.Cluster.Network.cluster_connected
#print axioms Verif.Cluster.Network.cluster_adjacent
#print axioms Verif.Cluster.Network.link_cost
#print axioms Verif.Cluster.Network.transformers_lost
#print axioms Verif.Cluster.Network.Demo.transformer_disconnects
#print axioms Verif.Cluster.Network.cluster_voltage
#print axioms Verif.Registry.formatRow_spec
#print axioms Verif.Registry.format_spec
#print axioms Verif.Registry.static_or_varying
#print axioms Verif.Registry.format_again
#print axioms Verif.Ports.fresh_good
#print axioms Verif.Ports.good_runs
#print axioms Verif.Ports.beforeFlow_good
#print axioms Verif.Ports.oneByOne_good_partial
#print axioms Verif.Ports.others_kept
#print axioms Verif.Ports.Demo.other_network_breaks
#print axioms Verif.Ports.Demo.beforeFlow_no_repair
#print axioms Verif.Ports.Demo.ports_leak
#print axioms Verif.Ports.import_good_partial
#print axioms Verif.Ports.import_inStep
#print axioms Verif.Ports.import_old
#print axioms Verif.Ports.import_new
#print axioms Verif.Ports.Demo.first_efficiency_missing
#print axioms Verif.Ports.Demo.second_efficiency_filled
#print axioms Verif.Ports.Demo.older_links_missing
#print axioms Verif.IO.Pypower.pypower_same_power_flow
#print axioms Verif.IO.Pypower.pypower_same_solutions
#print axioms Verif.IO.Pypower.pypower_linear
#print axioms Verif.IO.Pypower.pypower_status_ignored
#print axioms Verif.IO.Pypower.pypower_zero_rating
#print axioms Verif.IO.Pypower.pypower_t_model_differs
#print axioms Verif.IO.Pypower.pypower_structure
#print axioms Verif.IO.Pypower.pypower_branches
#print axioms Verif.IO.Pypower.pypower_import_succeeds
#print axioms Verif.IO.Pypower.pypower_isolated_bus
#print axioms Verif.IO.Pandapower.pandapower_switches_partial
#print axioms Verif.IO.Pandapower.pandapower_switch_chain
#print axioms Verif.IO.Pandapower.pandapower_switch_twice
#print axioms Verif.IO.Pandapower.pandapower_line_partial
#print axioms Verif.IO.Pandapower.pandapower_line_circuits
#print axioms Verif.IO.Pandapower.pandapower_double_circuit
#print axioms Verif.IO.Pandapower.pandapower_trafo_partial
#print axioms Verif.IO.Pandapower.pandapower_trafo_scale
#print axioms Verif.IO.Pandapower.pandapower_trafo_wrong_base
#print axioms Verif.IO.Pandapower.pandapower_trafo_sign
#print axioms Verif.Opt.Whole.zero_profit_gen
#print axioms Verif.Opt.Whole.zero_profit_link
#print axioms Verif.Opt.Whole.zero_profit_store
#print axioms Verif.Opt.Whole.zero_profit_unit
#print axioms Verif.Opt.Whole.zero_profit_line
#print axioms Verif.Opt.Whole.zero_profit_trafo
#print axioms Verif.Opt.Whole.no_loss_gen
#print axioms Verif.Opt.Whole.no_loss_link
#print axioms Verif.Opt.Whole.no_loss_store
#print axioms Verif.Opt.Whole.no_loss_unit
#print axioms Verif.Opt.Whole.no_loss_line
#print axioms Verif.Opt.Whole.no_loss_trafo
#print axioms Verif.Opt.Whole.merit_order_gen
#print axioms Verif.Opt.Whole.merit_order_link
#print axioms Verif.Opt.Whole.price_is_marginal
#print axioms Verif.Opt.Whole.arbitrage_store
#print axioms Verif.Opt.Whole.arbitrage_unit
#print axioms Verif.Opt.Duals.dual_recorded
#print axioms Verif.Opt.Duals.limits_recorded_partial
#print axioms Verif.Opt.Duals.unit_limits
#print axioms Verif.Opt.Duals.unit_limit_overwritten
#print axioms Verif.Opt.Duals.limits_not_recorded
#print axioms Verif.Opt.Duals.price_recorded
#print axioms Verif.Opt.Duals.global_recorded
#print axioms Verif.Opt.Duals.upper_not_positive
#print axioms Verif.Opt.Duals.upper_negative
#print axioms Verif.PowerFlow.Results.components_balance_partial
#print axioms Verif.PowerFlow.Results.set_points_kept
#print axioms Verif.PowerFlow.Results.sub_balanced
#print axioms Verif.PowerFlow.Results.single_balanced
#print axioms Verif.PowerFlow.Results.no_generator_raises
#print axioms Verif.PowerFlow.Results.slack_mismatch
#print axioms Verif.PowerFlow.Results.single_ignores_shunts
#print axioms Verif.PowerFlow.Results.bus_without_generators
#print axioms Verif.Opt.Whole.more_options_partial
#print axioms Verif.Opt.Whole.optimum_not_worse_partial
#print axioms Verif.Opt.Whole.spare_link_infeasible
#print axioms Verif.Opt.Whole.order_irrelevant
#print axioms Verif.Opt.Whole.rolling_feasible_partial
#print axioms Verif.Opt.Whole.rolling_not_cheaper_partial
#print axioms Verif.Opt.Whole.capacity_of_last_window
#print axioms Verif.Opt.Whole.window_costs
#print axioms Verif.Opt.Whole.cost_snapshots
#print axioms Verif.Stats.balance_expression_partial
#print axioms Verif.Stats.supply_less_withdrawal
#print axioms Verif.Stats.transmission_reversed
#print axioms Verif.Stats.operation_class
#print axioms Verif.Stats.opex_expression_partial
#print axioms Verif.Stats.opex_links
#print axioms Verif.Stats.capacity_expression_partial
#print axioms Verif.Stats.capex_expression_partial
#print axioms Verif.Stats.fixed_class_missing
#print axioms Verif.Stats.capex_missing
#print axioms Verif.Stats.line_capex_missing
#print axioms Verif.Stats.link_capex_missing
#print axioms Verif.Stats.curtailment_expression_partial
#print axioms Verif.Stats.curtailment_nan
#print axioms Verif.Stats.night_curtailment
#print axioms Verif.Stats.store_balance_is_level
#print axioms Verif.Stats.store_balance_wrong
#print axioms Verif.Stats.unit_supply
#print axioms Verif.Stats.charging_missing
#print axioms Verif.Stats.unused_port_counts
#print axioms Verif.Stats.aggregate_congr
#print axioms Verif.Stats.transmits_iff
#print axioms Verif.IO.Formats.tables_back_partial
#print axioms Verif.IO.Formats.excel_apart
#print axioms Verif.IO.Formats.hdf5_apart
#print axioms Verif.IO.Formats.excel_over_older_partial
#print axioms Verif.IO.Formats.columns_back
#print axioms Verif.IO.Formats.stray_column
#print axioms Verif.IO.Formats.excel_meta_back
#print axioms Verif.IO.Formats.excel_meta_text
#print axioms Verif.IO.Formats.excel_meta_changes
#print axioms Verif.IO.Formats.attrs_back_partial
#print axioms Verif.IO.Formats.unnamed_is_nan
#print axioms Verif.IO.Formats.name_argument_ignored
#print axioms Verif.IO.Formats.Demo.extra_sheet_read
#print axioms Verif.IO.Formats.Demo.folder_and_workbook
#print axioms Verif.Opt.Whole.units_irrelevant
#print axioms Verif.Opt.Whole.prices_convert
#print axioms Verif.Opt.Whole.looser_limits_partial
#print axioms Verif.Opt.Whole.optimum_no_worse_partial
#print axioms Verif.Opt.Whole.looser_ramp_infeasible
#print axioms Verif.Opt.Whole.larger_line_costs_more
#print axioms Verif.Opt.Whole.off_partial
#print axioms Verif.Opt.Whole.off_optimum_partial
#print axioms Verif.Opt.Global.tech_off
#print axioms Verif.Opt.Global.bus_off
#print axioms Verif.Opt.Global.transmission_off
#print axioms Verif.Opt.Global.primary_off_partial
#print axioms Verif.Opt.Whole.off_link_infeasible
#print axioms Verif.Opt.Whole.off_raises
#print axioms Verif.Opt.Global.OffDemo.off_store_uses_budget
#print axioms Verif.Opt.Global.OffDemo.off_meets_minimum
#print axioms Verif.Opt.Global.OffDemo.off_counts_in_volume
#print axioms Verif.Opt.Whole.unit_to_parts
#print axioms Verif.Opt.Whole.parts_to_unit
#print axioms Verif.Opt.Whole.replaced_optimum
#print axioms Verif.Opt.Whole.turn_irrelevant
#print axioms Verif.Opt.Whole.law_turn
#print axioms Verif.Opt.Kvl.kvl_turn
#print axioms Verif.Opt.Kvl.basis_turn
#print axioms Verif.PowerFlow.lpf_turn
#print axioms Verif.PowerFlow.factors_turn
#print axioms Verif.PowerFlow.AC.pf_turn
#print axioms Verif.Opt.Whole.joined_set_up
#print axioms Verif.Opt.Whole.joined_feasible_partial
#print axioms Verif.Opt.Whole.joined_cheapest_partial
#print axioms Verif.Opt.Whole.joined_optimum_partial
#print axioms Verif.Opt.Whole.joined_infeasible
#print axioms Verif.Opt.Whole.renamed_program
#print axioms Verif.Opt.Whole.names_irrelevant
#print axioms Verif.Opt.Whole.all_known
#print axioms Verif.Opt.Whole.Doc.rules_iff
#print axioms Verif.Opt.Whole.Doc.best_iff
#print axioms Verif.Opt.Whole.Doc.unit_rule
#print axioms Verif.Opt.Whole.Doc.branch_rule
#print axioms Verif.Opt.Whole.Doc.level_rule
#print axioms Verif.Opt.Whole.Doc.linear_rule
#print axioms Verif.Opt.Whole.Doc.ramp_rule
#print axioms Verif.Graph.tree_total
#print axioms Verif.Graph.tree_flow_partial
#print axioms Verif.Graph.tree_flow_unique
#print axioms Verif.Graph.lpf_radial
#print axioms Verif.Graph.tree_through_inactive
#print axioms Verif.Graph.aggregate_keeps_partial
#print axioms Verif.Graph.aggregate_fails
#print axioms Verif.Opt.AfterFlow.start_injections
#print axioms Verif.Opt.AfterFlow.start_total
#print axioms Verif.Opt.AfterFlow.lpf_keeps_dispatch
#print axioms Verif.Opt.AfterFlow.lpf_after_optimise_partial
#print axioms Verif.Opt.AfterFlow.controls_set
#print axioms Verif.Opt.AfterFlow.slack_kept
#print axioms Verif.Opt.AfterFlow.pq_bus_partial
#print axioms Verif.Opt.AfterFlow.no_pq_bus
#print axioms Verif.Opt.AfterFlow.shunt_not_optimised
#print axioms Verif.Plot.pie_areas
#print axioms Verif.Plot.pie_halves
#print axioms Verif.Plot.circle_areas
#print axioms Verif.Plot.arrow_direction
#print axioms Verif.Plot.arrow_turned
#print axioms Verif.Plot.colours_partial
#print axioms Verif.Plot.rectangle
#print axioms Verif.Plot.aggregate_net_partial
#print axioms Verif.Plot.aggregate_balance_partial
#print axioms Verif.Plot.scaling_covers
#print axioms Verif.Plot.flows_by_class
#print axioms Verif.Plot.names_clash
#print axioms Verif.Plot.colours_shift
#print axioms Verif.Plot.flow_ignored
#print axioms Verif.Plot.digits_partial
#print axioms Verif.Plot.label_value
#print axioms Verif.Plot.label_range
#print axioms Verif.Plot.legend_entries
#print axioms Verif.Plot.digits_cut
#print axioms Verif.Plot.unit_taken_apart
#print axioms Verif.Opt.Whole.Snap.rolling_exact
#print axioms Verif.Opt.Whole.Snap.snap_iff
#print axioms Verif.Opt.Whole.Snap.window_snap
#print axioms Verif.Opt.Whole.Snap.best_snap
#print axioms Verif.Opt.Whole.Weights.representative
#print axioms Verif.Opt.Whole.Weights.rules_expand
#print axioms Verif.Opt.Whole.Weights.rules_average
#print axioms Verif.Opt.Whole.Weights.alike_cost
#print axioms Verif.Opt.Whole.Weights.rules_in
#print axioms Verif.Opt.Whole.Weights.average_total
#print axioms Verif.Cluster.Optimum.cluster_bound_partial
#print axioms Verif.Cluster.Optimum.merge_exact
#print axioms Verif.Cluster.Optimum.cluster_lower
#print axioms Verif.Cluster.Optimum.cluster_upper
#print axioms Verif.Cluster.Optimum.cluster_parts
#print axioms Verif.Cluster.Optimum.Demo.average_costs_dearer
#print axioms Verif.Cluster.Busmaps.kmeans_busmap
#print axioms Verif.Cluster.Busmaps.kmeans_ok_iff
#print axioms Verif.Cluster.Busmaps.kmeans_same_place
#print axioms Verif.Cluster.Busmaps.hac_busmap_partial
#print axioms Verif.Cluster.Busmaps.graph_edges
#print axioms Verif.Cluster.Busmaps.graph_weight_partial
#print axioms Verif.Cluster.Busmaps.modularity_busmap
#print axioms Verif.Cluster.Busmaps.clustering_buses
#print axioms Verif.Cluster.Busmaps.part_refused
#print axioms Verif.Cluster.Busmaps.Demo.fractions_lost
#print axioms Verif.Cluster.Busmaps.Demo.features_by_position
#print axioms Verif.Cluster.Busmaps.Demo.unknown_bus_labelled
#print axioms Verif.Cluster.Busmaps.Demo.connections_lost
#print axioms Verif.Cluster.Busmaps.Demo.parallel_not_added
#print axioms Verif.Opt.Whole.Rent.rent_nonneg
#print axioms Verif.Opt.Whole.Rent.surplus
#print axioms Verif.Opt.Whole.Rent.same_price
#print axioms Verif.Opt.Whole.Rent.one_price
#print axioms Verif.Opt.Whole.Rent.radial_price
#print axioms Verif.Opt.Whole.Rent.law_homogeneous
#print axioms Verif.Opt.Whole.Rent.law_silent
#print axioms Verif.Opt.Whole.Rent.law_elsewhere
#print axioms Verif.Opt.Whole.Rent.Demo.against_prices
#print axioms Verif.Plot.Charts.chart_shows_partial
#print axioms Verif.Plot.Charts.drawn_sum
#print axioms Verif.Plot.Charts.drawn_mean
#print axioms Verif.Plot.Charts.drawn_points
#print axioms Verif.Plot.Charts.drawn_iff
#print axioms Verif.Plot.Charts.parameters
#print axioms Verif.Plot.Charts.asked
#print axioms Verif.Plot.Charts.call_kind
#print axioms Verif.Plot.Charts.map_legends
#print axioms Verif.Plot.Charts.flow_alone_refused
#print axioms Verif.Plot.Charts.line_is_mean
#print axioms Verif.Plot.Charts.bar_is_mean
#print axioms Verif.Plot.Charts.unknown_refused
#print axioms Verif.Plot.Charts.stacks_of_signs
#print axioms Verif.Opt.Whole.Shares.shares_optimum
#print axioms Verif.Opt.Whole.Shares.rules_shared
#print axioms Verif.Opt.Whole.Shares.rules_whole
#print axioms Verif.Opt.Whole.Shares.cost_whole
#print axioms Verif.Opt.Whole.Shares.cost_shared
#print axioms Verif.Opt.Whole.Shares.supply_whole
#print axioms Verif.Opt.Whole.Shares.spread_iff
#print axioms Verif.Opt.Whole.Shares.whole_shared
#print axioms Verif.Opt.Whole.Emissions.limit_is_price
#print axioms Verif.Opt.Whole.Emissions.price_is_limit
#print axioms Verif.Opt.Whole.Emissions.higher_price
#print axioms Verif.Opt.Whole.Emissions.tighter_limit
#print axioms Verif.Opt.Whole.Emissions.limit_row
#print axioms Verif.Opt.Whole.Emissions.cost_priced
#print axioms Verif.Opt.Whole.Emissions.levy_plain
#print axioms Verif.Opt.Whole.Emissions.levy_weights
#print axioms Verif.Opt.Whole.Emissions.best_of_solved
#print axioms Verif.Graph.Sub.bus_once
#print axioms Verif.Graph.Sub.port_once
#print axioms Verif.Graph.Sub.port_lost
#print axioms Verif.Graph.Sub.branch_once
#print axioms Verif.Graph.Sub.buses_together
#print axioms Verif.Graph.Sub.ports_together
#print axioms Verif.Graph.Sub.branches_together
#print axioms Verif.Graph.Sub.shown_together_partial
#print axioms Verif.Graph.Sub.series_shown
#print axioms Verif.Graph.Sub.branches_shown
#print axioms Verif.Graph.Sub.iterate_supported
#print axioms Verif.Graph.Sub.iterate_all_fails
#print axioms Verif.Graph.Sub.read_only
#print axioms Verif.Graph.Sub.new_port
#print axioms Verif.Graph.Sub.new_bus
#print axioms Verif.Graph.Sub.out_of_service_shown
#print axioms Verif.Opt.Whole.Commit.rules_on
#print axioms Verif.Opt.Whole.Commit.rules_off
#print axioms Verif.Opt.Whole.Commit.cost_on
#print axioms Verif.Opt.Whole.Commit.cost_off
#print axioms Verif.Opt.Whole.Commit.freedom
#print axioms Verif.Opt.Whole.Commit.no_gain
#print axioms Verif.Opt.Whole.Commit.nothing_changes
#print axioms Verif.Opt.Whole.Commit.must_run
#print axioms Verif.Opt.Whole.Commit.starts_faster
#print axioms Verif.Opt.Whole.Commit.must_rest
#print axioms Verif.Opt.Whole.Statics.cost_raise
#print axioms Verif.Opt.Whole.Statics.rules_raise
#print axioms Verif.Opt.Whole.Statics.bounds
#print axioms Verif.Opt.Whole.Statics.less_used
#print axioms Verif.Opt.Whole.Statics.gen_hour
#print axioms Verif.Opt.Whole.Statics.link_hour
#print axioms Verif.Opt.Whole.Statics.store_hour
#print axioms Verif.Opt.Whole.Statics.unit_hour
#print axioms Verif.Opt.Whole.Statics.gens_energy
#print axioms Verif.Opt.Whole.Statics.links_energy
#print axioms Verif.Opt.Whole.Statics.stores_energy
#print axioms Verif.Opt.Whole.Statics.units_energy
#print axioms Verif.Opt.Whole.Statics.gen_capacity
#print axioms Verif.Opt.Whole.Statics.link_capacity
#print axioms Verif.Opt.Whole.Statics.store_capacity
#print axioms Verif.Opt.Whole.Statics.unit_capacity
#print axioms Verif.Opt.Whole.Statics.line_capacity
#print axioms Verif.Opt.Whole.Statics.trafo_capacity
#print axioms Verif.Opt.Whole.Statics.concave
#print axioms Verif.Opt.Whole.Statics.loads_bounds
#print axioms Verif.Opt.Whole.Statics.prices_follow
#print axioms Verif.Opt.Whole.Statics.price_follows
#print axioms Verif.Opt.Whole.Statics.loads_convex
#print axioms Verif.PowerFlow.Flat.first_step_is_lpf_partial
#print axioms Verif.PowerFlow.Flat.first_step
#print axioms Verif.PowerFlow.Flat.flow_near
#print axioms Verif.PowerFlow.Flat.radial_flows
#print axioms Verif.PowerFlow.Flat.cut
#print axioms Verif.PowerFlow.Flat.t_model_differs
#print axioms Verif.PowerFlow.Flat.t_model_reactance
#print axioms Verif.PowerFlow.Flat.tap_differs
#print axioms Verif.PowerFlow.Flat.flow_in_units
#print axioms Verif.Opt.Whole.Eras.one_period_partial
#print axioms Verif.Opt.Whole.Eras.weights_scale_partial
#print axioms Verif.Opt.Whole.Eras.best_periods
#print axioms Verif.Opt.Whole.Eras.weights_irrelevant
#print axioms Verif.Opt.Whole.Eras.newcomer_ramps
#print axioms Verif.Opt.Whole.Eras.starts_not_weighted
#print axioms Verif.Opt.Whole.Eras.ramps_link_periods
#print axioms Verif.Opt.Whole.Eras.quad_one_period_partial
#print axioms Verif.Opt.Whole.Eras.quad_weights_scale_partial
#print axioms Verif.Opt.Whole.Eras.quad_best_periods
#print axioms Verif.Opt.Whole.Eras.quad_weights_irrelevant
#print axioms Verif.Opt.Whole.Turn.order_free
#print axioms Verif.Opt.Whole.Turn.year_begins_anywhere
#print axioms Verif.Opt.Whole.Turn.rotation_exists
#print axioms Verif.Opt.Whole.Turn.ramps_not_cyclic
#print axioms Verif.Opt.Whole.LossPrice.losses_tight
#print axioms Verif.Opt.Whole.LossPrice.losses_close
#print axioms Verif.Opt.Whole.LossPrice.losses_burn
#print axioms Verif.Opt.Whole.LossPrice.price_rises
#print axioms Verif.Opt.Whole.LossPrice.earned_nonneg
#print axioms Verif.Opt.Whole.LossPrice.surplus
#print axioms Verif.Opt.Whole.LossPrice.Demo.losses_overstated
#print axioms Verif.Opt.Whole.Recast.exchange_best
#print axioms Verif.Opt.Whole.Recast.exchange_solver
#print axioms Verif.Opt.Whole.Recast.line_as_link
#print axioms Verif.Opt.Whole.Recast.load_as_generator
#print axioms Verif.Opt.Whole.Recast.generator_as_fuel
#print axioms Verif.Access.last_write
#print axioms Verif.Access.names_agree
#print axioms Verif.Access.items_one_by_one
#print axioms Verif.Access.as_components_own
#print axioms Verif.Access.attrs_by_class
#print axioms Verif.Access.attrs_kept
#print axioms Verif.Access.box_attr
#print axioms Verif.Access.assigned_not_found
#print axioms Verif.Access.assigned_found_partial
#print axioms Verif.Access.class_name_unknown_to_dict
#print axioms Verif.Access.contains_raises
#print axioms Verif.Access.values_hidden
#print axioms Verif.Access.ctype_equivalence
#print axioms Verif.Access.standard_types_ignored
#print axioms Verif.Access.ctype_eq_iff
#print axioms Verif.Geo.length_values
#print axioms Verif.Geo.long_unique
#print axioms Verif.Geo.length_geometry
#print axioms Verif.Geo.assigned_lost
#print axioms Verif.Geo.not_assigns
#print axioms Verif.Opt.Whole.Alternatives.ran_iff
#print axioms Verif.Opt.Whole.Alternatives.alternatives_bracket
#print axioms Verif.Opt.Whole.Alternatives.alternatives_between
#print axioms Verif.Opt.Whole.Alternatives.slack_range
#print axioms Verif.Opt.Whole.Alternatives.no_slack
#print axioms Verif.Opt.Whole.Alternatives.runs_within_partial
#print axioms Verif.Opt.Whole.Alternatives.not_within
#print axioms Verif.Opt.Whole.Coarse.means_plan
#print axioms Verif.Opt.Whole.Coarse.means_lower_partial
#print axioms Verif.Opt.Whole.Coarse.not_lower_losses
#print axioms Verif.Opt.Whole.Coarse.not_lower_prices
#print axioms Verif.Opt.Whole.Curve.convex_partial
#print axioms Verif.Opt.Whole.Curve.steeper_partial
#print axioms Verif.Opt.Whole.Curve.concave
#print axioms Verif.Opt.Whole.Curve.not_convex
#print axioms Verif.Opt.Whole.Curve.plan_mix
#print axioms Verif.Opt.Whole.Curve.cost_mix
#print axioms Verif.Plot.Interactive.own_lines
#print axioms Verif.Plot.Interactive.drawn_iff
#print axioms Verif.Plot.Interactive.own_view_partial
#print axioms Verif.Plot.Interactive.first_view_stays
#print axioms Verif.Plot.Interactive.keeps_data
#print axioms Verif.Plot.Interactive.ignores_coordinates
#print axioms Verif.Plot.Interactive.static_coordinates
#print axioms Verif.Plot.Interactive.layouts_alike
#print axioms Verif.Plot.Interactive.own_markers
#print axioms Verif.Plot.Interactive.static_lines_partial
#print axioms Verif.Plot.Interactive.explore_rows
#print axioms Verif.Plot.Interactive.placed_partial
#print axioms Verif.Plot.Interactive.given_unused
#print axioms Verif.Plot.Interactive.not_own_views
#print axioms Verif.Plot.Interactive.not_lasting_views
#print axioms Verif.Plot.Interactive.not_at_coordinates
#print axioms Verif.Plot.Interactive.not_keeps
#print axioms Verif.Plot.Interactive.not_placed
#print axioms Verif.Plot.Interactive.own_middles
#print axioms Verif.Plot.Interactive.explore_layers
#print axioms Verif.Geo.Crs.shapes_stay
#print axioms Verif.Geo.Crs.buses_stay_partial
#print axioms Verif.Geo.Crs.bus_lands
#print axioms Verif.Geo.Crs.there_and_back
#print axioms Verif.Geo.Crs.one_system
#print axioms Verif.Geo.Crs.adds
#print axioms Verif.Geo.Crs.set_iff
#print axioms Verif.Geo.Crs.set_nothing
#print axioms Verif.Geo.Crs.reloads
#print axioms Verif.Geo.Crs.slices
#print axioms Verif.Geo.Crs.copies_partial
#print axioms Verif.Geo.Crs.not_buses_stay
#print axioms Verif.Geo.Crs.not_settable
#print axioms Verif.Geo.Crs.not_copies
#print axioms Verif.Opt.Whole.Exist.best_exists
#print axioms Verif.Opt.Whole.Exist.prices_exist
#print axioms Verif.Opt.Whole.Exist.priced_best
#print axioms Verif.Opt.Whole.Exist.no_plan
#print axioms Verif.Opt.Whole.Exist.three_ways
#print axioms Verif.Opt.Whole.Exist.cost_nonneg
#print axioms Verif.Opt.Whole.Exist.thrifty_best
#print axioms Verif.Opt.Whole.Exist.market
#print axioms Verif.Opt.Whole.Exist.welfare
#print axioms Verif.Opt.Whole.Exist.same_prices
#print axioms Verif.Opt.Whole.Exist.not_whole_prices
#print axioms Verif.Opt.Whole.Exist.binary_best
#print axioms Verif.Opt.Whole.Exist.commitment_best
#print axioms Verif.Opt.Whole.Exist.commitment_thrifty
#print axioms Verif.Opt.Whole.Exist.commitment_prices
#print axioms Verif.Opt.Whole.Exist.switches_iff
#print axioms Verif.Opt.Whole.Exist.shed_plan
#print axioms Verif.Opt.Whole.Exist.shed_always
#print axioms Verif.Opt.Whole.Exist.shed_price
#print axioms Verif.Opt.Whole.Exist.shed_cap
#print axioms Verif.Opt.Whole.Exist.shed_needless
#print axioms Verif.Opt.Whole.Exist.shed_rules
#print axioms Verif.Opt.Whole.Exist.shed_total
#print axioms Verif.Opt.Whole.Exist.shed_names
#print axioms Verif.Opt.Whole.Quad.solver_least
#print axioms Verif.Opt.Whole.Quad.least_tangent
#print axioms Verif.Opt.Whole.Quad.quad_prices
#print axioms Verif.Opt.Whole.Quad.quad_market
#print axioms Verif.Opt.Whole.Quad.quad_welfare
#print axioms Verif.Opt.Whole.Quad.answered_iff
#print axioms Verif.Opt.Whole.Quad.answered_slope
#print axioms Verif.Opt.Whole.Quad.quad_merit
#print axioms Verif.Opt.Whole.Quad.quad_load
#print axioms Verif.Opt.Whole.Quad.quad_unique
#print axioms Verif.Opt.Whole.Quad.quad_course
#print axioms Verif.Stats.Groupers.adds_spec
#print axioms Verif.Stats.Groupers.own_found
#print axioms Verif.Stats.Groupers.others_same
#print axioms Verif.Stats.Groupers.not_none_notices
#print axioms Verif.Stats.Groupers.list_broken
#print axioms Verif.Stats.Groupers.add_broken
#print axioms Verif.Stats.Groupers.hidden_lost
#print axioms Verif.Stats.Groupers.column
#print axioms Verif.Stats.Groupers.column_hidden
#print axioms Verif.Stats.Groupers.label_attr
#print axioms Verif.Stats.Groupers.label_busCarrier
#print axioms Verif.Stats.Groupers.label_own
#print axioms Verif.Stats.Groupers.every_label
#print axioms Verif.Stats.Groupers.levels
#print axioms Verif.Stats.Groupers.subscript_same
#print axioms Verif.Stats.Groupers.dot_in_list
#print axioms Verif.Stats.Groupers.dot_same_partial
#print axioms Verif.Stats.Groupers.dot_raises
#print axioms Verif.Stats.Groupers.not_dot_same
#print axioms Verif.Stats.Groupers.old_same
#print axioms Verif.Stats.Groupers.old_raises
#print axioms Verif.Stats.Groupers.tuple_refused
#print axioms Verif.Stats.Groupers.old_one
#print axioms Verif.Opt.Farkas.attained_squares
#print axioms Verif.Opt.Farkas.squares_optimum
#print axioms Verif.Opt.Whole.Quad.squares_coef
#print axioms Verif.Opt.Whole.Quad.least_exists
#print axioms Verif.Opt.Whole.Quad.quad_three_ways
#print axioms Verif.Opt.Whole.Quad.quad_thrifty
#print axioms Verif.Opt.Whole.Quad.equilibrium_exists
#print axioms Verif.Stats.BalanceUnit.accepted
#print axioms Verif.Stats.BalanceUnit.unit_named
#print axioms Verif.Stats.BalanceUnit.dependent_iff
#print axioms Verif.Stats.BalanceUnit.unit_of_ports
#print axioms Verif.Stats.BalanceUnit.not_patterns
#print axioms Verif.Stats.BalanceUnit.pattern_raises
#print axioms Verif.Stats.BalanceUnit.list_raises
#print axioms Verif.Network.Columns.standard_first
#print axioms Verif.Network.Columns.same_columns
#print axioms Verif.Network.Columns.mem_step
#print axioms Verif.Network.Columns.own_there
#print axioms Verif.Network.Columns.own_stays
#print axioms Verif.Network.Columns.own_lost
#print axioms Verif.Network.Columns.reproducible_partial
#print axioms Verif.Network.Columns.not_reproducible
#print axioms Verif.Network.Weightings.rows_fit
#print axioms Verif.Network.Weightings.columns_stay_partial
#print axioms Verif.Network.Weightings.not_columns_stay
#print axioms Verif.Network.Weightings.sets_fit
#print axioms Verif.Network.Weightings.leaves_fit
#print axioms Verif.Network.Weightings.period_rows_partial
#print axioms Verif.Network.Weightings.not_period_rows
#print axioms Verif.Network.Weightings.snapshots_value
#print axioms Verif.Network.Weightings.periods_value
#print axioms Verif.Network.Weightings.period_value
#print axioms Verif.Network.Weightings.series_value
#print axioms Verif.Network.Weightings.period_series_value
#print axioms Verif.Network.Weightings.hours_step
#print axioms Verif.Network.Weightings.hours_last
#print axioms Verif.Network.Weightings.hours_single
#print axioms Verif.Network.Weightings.hours_sum
#print axioms Verif.Network.Weightings.timed_value
#print axioms Verif.Opt.Whole.Quad.least_gap
#print axioms Verif.Opt.Whole.Quad.quad_less_used
#print axioms Verif.Opt.Whole.Quad.quad_gens
#print axioms Verif.Opt.Whole.Quad.quad_reacts
#print axioms Verif.Opt.Whole.Quad.load_gap
#print axioms Verif.Opt.Whole.Quad.quad_prices_follow
#print axioms Verif.Opt.Whole.Quad.quad_price_follows
#print axioms Verif.Opt.Whole.Quad.quad_shed_cap
#print axioms Verif.Opt.Whole.Quad.quad_shed
#print axioms Verif.Opt.Whole.Quad.quad_bounds
#print axioms Verif.Opt.Whole.Quad.quad_concave
#print axioms Verif.Opt.Whole.Quad.quad_loads_convex
#print axioms Verif.Plot.Flows.onMap_iff
#print axioms Verif.Plot.Flows.only_branches
#print axioms Verif.Plot.Flows.all_without
#print axioms Verif.Plot.Flows.with_flows
#print axioms Verif.Plot.Flows.same_branches_partial
#print axioms Verif.Plot.Flows.not_same_branches
#print axioms Verif.Plot.Flows.unknown_refused
#print axioms Verif.Plot.Flows.at_snapshot
#print axioms Verif.Plot.Flows.aggregated
#print axioms Verif.Plot.Flows.number
#print axioms Verif.Plot.Flows.of_series
#print axioms Verif.Plot.Flows.of_widths
#print axioms Verif.Plot.Flows.of_nothing
#print axioms Verif.Plot.Flows.one_arrow
#print axioms Verif.Plot.Flows.number_is_snapshot
#print axioms Verif.Plot.Flows.dict_raises
#print axioms Verif.Cluster.OnePort.lone_kept_partial
#print axioms Verif.Cluster.OnePort.agreed
#print axioms Verif.Cluster.OnePort.no_rule_once
#print axioms Verif.Cluster.OnePort.no_rule_lost
#print axioms Verif.Cluster.OnePort.quadratic_dearer
#print axioms Verif.Cluster.OnePort.quadratic_even
#print axioms Verif.Cluster.OnePort.GroupDemo.not_lone_kept
#print axioms Verif.Cluster.OnePort.GroupDemo.quadratic_doubles
#print axioms Verif.Cluster.OnePort.GroupDemo.shunt_lost
