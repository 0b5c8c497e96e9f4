import Verif.Access.Model
import Verif.Access.Props
import Verif.Axioms
import Verif.Cluster.Busmaps
import Verif.Cluster.BusmapsProps
import Verif.Cluster.Lines
import Verif.Cluster.LinesProps
import Verif.Cluster.Network
import Verif.Cluster.NetworkProps
import Verif.Cluster.OnePort
import Verif.Cluster.OnePortGroupProps
import Verif.Cluster.OnePortProps
import Verif.Cluster.OptimumProps
import Verif.Cluster.Stubs
import Verif.Cluster.StubsProps
import Verif.Common.Model
import Verif.Common.Props
import Verif.Consistency.Model
import Verif.Consistency.Props
import Verif.Equality.Model
import Verif.Equality.Props
import Verif.Geo.Crs
import Verif.Geo.CrsProps
import Verif.Geo.Length
import Verif.Geo.LengthProps
import Verif.Geo.Model
import Verif.Geo.Props
import Verif.Graph.Cycles
import Verif.Graph.CyclesProps
import Verif.Graph.Lemmas
import Verif.Graph.Model
import Verif.Graph.Props
import Verif.Graph.SubNetworks
import Verif.Graph.SubNetworksProps
import Verif.Graph.Tree
import Verif.Graph.TreeProps
import Verif.IO.CsvProps
import Verif.IO.DemoProps
import Verif.IO.Formats
import Verif.IO.FormatsProps
import Verif.IO.Lemmas
import Verif.IO.Model
import Verif.IO.NamesProps
import Verif.IO.Pandapower
import Verif.IO.PandapowerProps
import Verif.IO.Props
import Verif.IO.Pypower
import Verif.IO.PypowerProps
import Verif.Network.Columns
import Verif.Network.ColumnsProps
import Verif.Network.Invariant
import Verif.Network.Lemmas
import Verif.Network.MergeCall
import Verif.Network.MergeCallProps
import Verif.Network.MergeProps
import Verif.Network.Model
import Verif.Network.Props
import Verif.Network.RenameProps
import Verif.Network.Transfer
import Verif.Network.TransferLemmas
import Verif.Network.TransferProps
import Verif.Network.Weightings
import Verif.Network.WeightingsProps
import Verif.Opt.Accessor
import Verif.Opt.AccessorProps
import Verif.Opt.Activity
import Verif.Opt.ActivityProps
import Verif.Opt.AfterFlow
import Verif.Opt.AfterFlowProps
import Verif.Opt.Alternatives
import Verif.Opt.AlternativesProps
import Verif.Opt.Capacity
import Verif.Opt.CapacityProps
import Verif.Opt.CoarseProps
import Verif.Opt.CommitProps
import Verif.Opt.CurveProps
import Verif.Opt.CycleProps
import Verif.Opt.Discrete
import Verif.Opt.DiscreteProps
import Verif.Opt.Duality
import Verif.Opt.Duals
import Verif.Opt.DualsProps
import Verif.Opt.EmissionProps
import Verif.Opt.ExistProps
import Verif.Opt.ExtendProps
import Verif.Opt.Farkas
import Verif.Opt.Global
import Verif.Opt.GlobalEnergyProps
import Verif.Opt.GlobalProps
import Verif.Opt.Iterative
import Verif.Opt.IterativeProps
import Verif.Opt.JoinProps
import Verif.Opt.Kvl
import Verif.Opt.KvlProps
import Verif.Opt.LP
import Verif.Opt.LoosenProps
import Verif.Opt.LossPriceProps
import Verif.Opt.Losses
import Verif.Opt.LossesProps
import Verif.Opt.NamesProps
import Verif.Opt.Nodal
import Verif.Opt.NodalProps
import Verif.Opt.Objective
import Verif.Opt.ObjectiveProps
import Verif.Opt.OffProps
import Verif.Opt.OnOffProps
import Verif.Opt.OrderProps
import Verif.Opt.PeriodProps
import Verif.Opt.QuadraticExistProps
import Verif.Opt.QuadraticPeriodProps
import Verif.Opt.QuadraticProps
import Verif.Opt.QuadraticStaticsProps
import Verif.Opt.RecastFuelProps
import Verif.Opt.RecastProps
import Verif.Opt.RentProps
import Verif.Opt.ReplaceProps
import Verif.Opt.Results
import Verif.Opt.ResultsProps
import Verif.Opt.Rolling
import Verif.Opt.RollingProps
import Verif.Opt.RollingWhole
import Verif.Opt.RollingWholeProps
import Verif.Opt.RulesProps
import Verif.Opt.Security
import Verif.Opt.SecurityProps
import Verif.Opt.SharesProps
import Verif.Opt.ShedProps
import Verif.Opt.SnapshotProps
import Verif.Opt.StaticsProps
import Verif.Opt.Storage
import Verif.Opt.StorageProps
import Verif.Opt.TurnProps
import Verif.Opt.Unit
import Verif.Opt.UnitProps
import Verif.Opt.UnitsProps
import Verif.Opt.WeightingProps
import Verif.Opt.WelfareProps
import Verif.Opt.Whole
import Verif.Opt.WholeExample
import Verif.Opt.WholeLemmas
import Verif.Opt.WholeProps
import Verif.Opt.WholeRows
import Verif.Opt.Wolfe
import Verif.Options.Lemmas
import Verif.Options.Model
import Verif.Options.Props
import Verif.Plot.Charts
import Verif.Plot.ChartsProps
import Verif.Plot.Flows
import Verif.Plot.FlowsProps
import Verif.Plot.Interactive
import Verif.Plot.InteractiveProps
import Verif.Plot.Legend
import Verif.Plot.LegendProps
import Verif.Plot.Maps
import Verif.Plot.MapsProps
import Verif.Ports.Model
import Verif.Ports.Props
import Verif.PowerFlow.Admittance
import Verif.PowerFlow.AdmittanceProps
import Verif.PowerFlow.FlatProps
import Verif.PowerFlow.Injection
import Verif.PowerFlow.InjectionProps
import Verif.PowerFlow.Jacobian
import Verif.PowerFlow.JacobianProps
import Verif.PowerFlow.Linear
import Verif.PowerFlow.LinearProps
import Verif.PowerFlow.PerUnit
import Verif.PowerFlow.Results
import Verif.PowerFlow.ResultsLemmas
import Verif.PowerFlow.ResultsProps
import Verif.PowerFlow.Slack
import Verif.PowerFlow.SlackProps
import Verif.PowerFlow.TurnProps
import Verif.PowerFlow.Types
import Verif.PowerFlow.TypesProps
import Verif.Py.Dict
import Verif.Registry.Model
import Verif.Registry.Props
import Verif.Stats.Aggregate
import Verif.Stats.AggregateProps
import Verif.Stats.BalanceUnit
import Verif.Stats.BalanceUnitProps
import Verif.Stats.Cost
import Verif.Stats.CostProps
import Verif.Stats.Expressions
import Verif.Stats.ExpressionsProps
import Verif.Stats.Groupers
import Verif.Stats.GroupersProps
import Verif.Stats.LinExpr
import Verif.Stats.LinExprProps
