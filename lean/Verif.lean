import Verif.Props.Bytes
import Verif.Props.Row
import Verif.Props.Cluster
import Verif.Props.Column
import Verif.Props.Strat
import Verif.Props.Merge
import Verif.Props.Reverse
import Verif.Props.Perm
import Verif.Props.Term
import Verif.Props.Load
import Verif.Props.Query
import Verif.Props.Update
import Verif.Props.Crash
import Verif.Props.Tree
import Verif.Props.Pool
import Verif.Props.Files
import Verif.Props.Parallel
import Verif.Props.NodeStore
import Verif.Props.Join
import Verif.Props.Scan
import Verif.Props.Table
import Verif.Props.Dict
import Verif.Props.Sort
import Verif.Props.Flat
import Verif.Props.MergeUpdates
import Verif.Props.MergeCrash
import Verif.Props.Card
import Verif.Props.ReOrder
import Verif.Props.TermGoto
import Verif.Props.Aggregates
import Verif.Props.HashJoin
import Verif.Props.MergeJoin
import Verif.Props.Union
import Verif.Props.Distinct
import Verif.Props.Limit
import Verif.Props.Algebra
import Verif.Props.Domain
import Verif.Props.Plan
import Verif.Props.Select
import Verif.Props.Parse
import Verif.Props.Constants
import Verif.Props.Analysis
import Verif.Props.Expr
import Verif.Props.FilterText
import Verif.Props.PlanGen
import Verif.Sparql.QueryText
import Verif.Sparql.QueryTextSpec
import Verif.Sparql.QueryAssume
import Verif.Sparql.QueryTextProofs
import Verif.Sparql.QueryRunProofs
import Verif.Sparql.QueryParseProofs
import Verif.Props.QueryText
import Verif.Sparql.IndexScan
import Verif.Sparql.IndexScanProofs
import Verif.Props.IndexScan
import Verif.Query.Distinct
import Verif.Query.DistinctProofs
import Verif.Query.Terms
import Verif.Sparql.AggrScan
import Verif.Sparql.AggrScanProofs
import Verif.Sparql.FullyScan
import Verif.Sparql.FullyScanProofs
import Verif.Props.Terms
import Verif.Props.Counts
import Verif.Sparql.OrderBy
import Verif.Sparql.OrderBySpec
import Verif.Sparql.OrderByProofs
import Verif.Props.OrderBy
import Verif.Props.StoreQuery
import Verif.Sparql.SortKeys
import Verif.Sparql.OrderQuerySpec
import Verif.Sparql.OrderRunProofs
import Verif.Props.OrderQuery
import Verif.Http.Json
import Verif.Http.JsonSpec
import Verif.Http.JsonProofs
import Verif.Http.JsonMake
import Verif.Http.JsonRead
import Verif.Props.Json
import Verif.Sparql.JsonOutput
import Verif.Sparql.JsonOutputSpec
import Verif.Sparql.JsonOutputProofs
import Verif.Props.JsonQuery
import Verif.Props.QueryPrint
import Verif.Http.Escape
import Verif.Http.FormSpec
import Verif.Http.FormProofs
import Verif.Http.Server
import Verif.Http.Client
import Verif.Http.ServerProofs
import Verif.Http.SendProofs
import Verif.Http.ClientProofs
import Verif.Http.PostProofs
import Verif.Props.Http
import Verif.Http.Exchange
import Verif.Http.ExchangeProofs
import Verif.Props.HttpQuery
import Verif.Query.PairCard
import Verif.Query.PairCardProofs
import Verif.Query.Aggr
import Verif.Query.AggrProofs
import Verif.Python.Db
import Verif.Python.Spec
import Verif.Python.DbProofs
import Verif.Props.Python
import Verif.Sparql.UnionQuerySpec
import Verif.Sparql.UnionQuery
import Verif.Sparql.UnionQueryProofs
import Verif.Props.UnionQuery
import Verif.Sparql.MinusQuerySpec
import Verif.Sparql.MinusQuery
import Verif.Sparql.MinusQueryProofs
import Verif.Props.MinusQuery
import Verif.Props.StoreAlgebra
import Verif.Http.WebSpec
import Verif.Http.Web
import Verif.Http.WebProofs
import Verif.Props.Web
import Verif.Ml.Batch
import Verif.Ml.BatchProofs
import Verif.Props.Batch
import Verif.Ml.BatchQuery
import Verif.Ml.BatchQueryProofs
import Verif.Props.BatchQuery
import Verif.Tables.ColumnNotIn
import Verif.Props.ColumnNotIn
import Verif.Update.Diff1
import Verif.Update.Diff1Proofs
import Verif.Props.Diff1
import Verif.Query.Edges
import Verif.Query.EdgesProofs
import Verif.Props.Edges
import Verif.Query.GroupCount
import Verif.Props.GroupCount
import Verif.Tables.FileIndex
import Verif.Props.FileIndex
import Verif.Iter.Aggr
import Verif.Props.Aggr
import Verif.Snap.Common
import Verif.Props.Common
import Verif.Snap.ShortPath
import Verif.Props.ShortPath
import Verif.Ml.Subgraphs
import Verif.Props.Subgraphs
import Verif.Ml.SubgraphFile
import Verif.Props.SubgraphFile
