import Verif.Index.Props
import Verif.Examine.Props
import Verif.Remover.Props
import Verif.Builder.Props
import Verif.Fields.Props
import Verif.Fields.Flat
import Verif.Fields.Det
import Verif.Schemas.Props
import Verif.MysqlPlan.Props
import Verif.MysqlPlan.Numbers
import Verif.MysqlPlan.Printed
import Verif.PgPlan.Props
import Verif.PgPlan.Numbers
import Verif.PgPlan.Printed
import Verif.SingleTable.Props
import Verif.SingleTable.Pg
import Verif.Otel.Convert
import Verif.Otel.Compact
import Verif.Otel.Attrs
import Verif.Otel.Times
import Verif.Heap.Props
import Verif.Otel.Picker
import Verif.Otel.Fetch
import Verif.Pi.Props
import Verif.Infra.IndexInfo
import Verif.Infra.Hasura
import Verif.Infra.PgConfig
import Verif.Cmd.Suggest
import Verif.Cmd.Chain
import Verif.Client.Shell
import Verif.Client.ShellIff
import Verif.Client.Diagram
import Verif.Client.ExplainChart
import Verif.Client.Load
import Verif.PgScope.Names
import Verif.PgScope.ScopeEx
import Verif.PgScope.Refuse
import Verif.Fields.Uses
import Verif.Fields.Outer
import Verif.PgScope.EndToEnd
import Verif.PgScope.Around
import Verif.PgScope.With
import Verif.MyScope.Ast
import Verif.MyScope.Model
import Verif.MyScope.Spec
import Verif.MyScope.Names
import Verif.MyScope.Scopes
import Verif.MyScope.EndToEnd
import Verif.MyScope.Examples
import Verif.MysqlPlan.Nodes
import Verif.MysqlPlan.Title
import Verif.PgPlan.Title
import Verif.Client.PlanView
import Verif.Client.Panels
import Verif.Client.Ddl
import Verif.Cmd.Jaeger
import Verif.Cmd.PerfInsights
import Verif.Cmd.Catalogue
import Verif.Cmd.MyCatalogue
import Verif.Report.Json
import Verif.Report.Page
import Verif.Report.Traces
import Verif.Infra.MyConfig
import Verif.Infra.HasuraClient
import Verif.Cmd.Told
import Verif.Cmd.ToldDig
import Verif.Otel.Late
import Verif.Client.Tooltip
import Verif.Report.Loads
import Verif.Cmd.Line
import Verif.Report.Again
import Verif.Client.Mermaid
import Verif.Infra.Address
import Verif.Lib.Chars
import Verif.Sql.Query
import Verif.Infra.Fetch
import Verif.Infra.FetchEx
import Verif.Infra.Suggest
import Verif.Regex.Words
import Verif.MysqlPlan.Tables
import Verif.PgPlan.Tables
import Verif.Report.Structure
import Verif.Report.Ranking
import Verif.Infra.HasuraHttp
import Verif.Cmd.Verbose
