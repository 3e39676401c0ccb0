# Formal model of GravityR

The model is a Lean 4 library in `lean/Verif`. Every definition that models code
cites the file and lines in the GravityR source tree it was written from.
Go and TypeScript code is read as text; nothing is extracted automatically.

## Layout

An area `X` is either one file or up to four files in `lean/Verif/X/`:

* `Model.lean`: the code, function by function.
* `Spec.lean`: the small specification the theorems are stated against.
* `Lemmas.lean`: helper lemmas (nothing here is claimed).
* `Props.lean`: the property theorems, named `Cnn_...`, each with an `example` that
  exercises its hypotheses on a concrete case.

`MANIFEST.json` maps each property of `properties.jsonl` to its theorems.
`seeded/LOG.jsonl` records the bugs seeded into scratch copies of the model.

Areas: `Regex` (backtracking engine for Go's `regexp`; `Lang.lean` proves that it finds a match exactly when there is one, leftmost first), `Sql` (lexer used as specification of SQL text), `Lib`
(stack, map, upsert, time ranges, collections), `Index` (index targets), `Examine`, `Remover`, `Builder` and
`Fields` (from scopes to suggestions), `Schemas`, `PgScope` (PostgreSQL collectors, and the suggestions end to
end), `MyScope` (MySQL collectors, and the suggestions end to end), `MysqlPlan`, `PgPlan`, `SingleTable` (plans),
`Heap`, `Otel` (traces), `Pi` (database load), `Infra` (catalogue rows, Hasura queries, connection strings), `Cmd`
(commands, and the chain from query text to examined indexes), `Client` (the report page).

## Conventions

* Go `string` is `List Char` (code points). Invalid UTF-8 is not modelled. Where the
  code counts bytes, the model says so and the strings involved are ASCII.
* `error` results are `Except`; panics (nil dereference, index out of range) are a
  separate error constructor, never a default value. Where Go does not terminate the model takes fuel, and the
  theorems say what fuel suffices or that none does.
* Go maps are association lists or functions plus an explicit iteration order
  given as a parameter; theorems quantify over that order.
* `sort.Slice` and JavaScript's `sort` are any function that returns a sorted permutation.
* Slices are lists. Where aliasing could matter it is discussed at the definition.
* External systems (database, Jaeger, AWS, clock, random numbers) are oracles: functions
  or lists of outcomes over which the theorems quantify.
* `float64` times are modelled by an ordered field or by `Int` microseconds where only
  addition and order matter; rounding is not modelled (stated at each definition).
* Regular expressions are modelled by a small backtracking matcher with the
  leftmost-first priority of Go's `regexp`, not by hand-written predicates.

## Plan per property

| id | modelled | how proved |
|----|----------|-----------|
| C01 | regexp engine, `NewIndexTargetFromText`, `NewIndexColumn` | word check on the captured pieces, for all texts |
| C02 | same, plus `CombinationString` / `toGrIndexOption` | priority analysis of the regexp on one-line texts |
| C03 | same | false with newlines: negation by witness, one-line case proved (`_partial`) |
| C04 | `NewIndexTargetsFromTexts` | induction on the list |
| C05 | `Equals`, `HasSameIdxColumns` | induction on column lists |
| C06 | three index examiners' SQL, `IsSafe`, `SafeName`; SQL lexer as specification | lexing the statement gives the expected token list |
| C07-C09 | `Run`, `examine` over a database interface with arbitrary failures; event trace | induction on targets, invariant on the set of live indexes |
| C10 | name construction with random suffix | length and alphabet lemmas |
| C11, C12 | `Remove` with index getter oracle | filter characterisation, permutation invariance |
| C13, C14 | compositions, efficiency filter, PK filter | induction on the set of columns |
| C15, C16 | `Build` with iteration orders as parameters, `sort.Slice` as any sorted permutation | uniqueness of sorted permutations for a total order on the output |
| C17-C19 | `calculateReferences` and helpers on scope trees | invariant over the scope recursion |
| C20 | `CreateTableSchemas` | induction on rows |
| C21, C22 | `buildExplainNode` with the mutable stack | stack invariant; print/parse round trip |
| C23, C24 | `groupToPlanLineNodes`, tree builder | stack invariant; C24 false without summary: negation, `_partial` |
| C25 | `toSingleTableTreeRecursive` | mutual induction on plan trees; "never twice" false: negation, `_partial` |
| C26 | `EstimatedTotalTime` | arithmetic over an ordered field |
| C27, C28 | `toTraceTrees`, `SortChildren` | parent-graph argument; permutation |
| C29 | `Compact` visitor with stack | simulation by a recursive specification |
| C30 | `CalcConsumedTime` on 64-bit words | interval arithmetic; false in general: negation, `_partial` |
| C31 | count visitor | induction on trees |
| C32, C33 | `container/heap` up/down, `LimitedHeap`, picker | heap invariant, multiset refinement |
| C34 | picker filter | induction |
| C35, C36 | `GenerateTimeRanges`, fetcher | well-founded loop, induction |
| C37, C38 | load conversion with nested maps | conservation by induction on samples; half-hour zones: negation |
| C39 | `toIndexInfo` | run grouping |
| C40 | query text builders | lexing of the built SQL |
| C41 | connection string and driver grammar | round trip when no quote/backslash, negation otherwise |
| C42 | command flow over step oracles | case analysis on the event trace |
| C43 | `ToCommandString` and a POSIX shell word lexer | round trip for all strings |
| C44, C45 | trace diagram construction | counting, well-nestedness by induction |
| C46 | explain chart tree | induction on forests |
| C47, C48 | chart series, ranking | induction on hours |
| C49, C50 | PostgreSQL scope collector on a syntax tree model | negations by witness, positive theorems on the supported fragment |
| C51, C52 | plan line regular expressions, `ParseFloat`/`ParseInt` as oracles on the captured text | priority analysis of the regexps on printed plan lines |
| C53 | per-table results with nil pointers explicit | case analysis; negation by witness, `_partial` |
| C54 | `newSpan`, attributes | induction on the raw spans |
| C55 | map of totals with iteration order | maximum over any order |
| C56 | `ToViewModel` of spans | mutual induction on span trees |
| C57 | window loop of the load command | induction on windows |
| C58 | command options of the report | case analysis |
| C59 | the three suggesters | composition of C11 with the listing oracle |
| C60 | order of the statements sent | event trace |
| C61 | load report command, POSIX shell lexer | round trip for statements without quotes, negations otherwise |
| C62 | raw loads of a tokenized statement | sorted permutation, prefix |
| C63, C64 | both PostgreSQL collectors over the AST walker | mutual structural recursion with fuel, per clause |
| C65 | `CollectTableNames` against "tables the query reads" | induction with the set of visible CTE names |
| C66, C67 | `BuildTableFields` against names mentioned and used by a scope | invariants of the resolution functions |
| C68, C69 | `ListPossibleIndexes` on PostgreSQL and Hasura | composition of C63-C67, C13-C17, C20 |
| C70-C72 | both MySQL collectors over TiDB's `Accept`, then `ListPossibleIndexes` | simulation of the visitor's stacks by a recursive specification |
| C73 | the suggesters from query text to indexes | composition with C59 |
| C74 | command flow composed with C73, the DDL and the examiner | every statement sent names tables and columns of the query |
| C75 | catalogue rows to existing indexes to `Remove` | composition; negation with PostgreSQL's quoted names |
| C76 | view models, `ExplainText.svelte`, the bars of C46 | worklist walk with object identities equals pre-order; composition with C21, C24, C46 |
| C77 | `calculateEndTime` and `EstimatedTotalTime` | case analysis over what the line parser can produce; negation for the tooltip |
| C78 | `Title` of both kinds of nodes | regex engine lemmas; negation for colons in values |
| C79 | the four panels of the load report as state machines | invariant over event sequences; negations for ranking and tokenized panels |
| C80 | SQL and curl command of the result table | lexer for SQL, shell reader with single quotes and parameters, JSON tokens; iff for ordinary names |
| C81 | the command `gr app dig jaeger` | composition of C33, C34, C36, C55, C56 over a world of oracles |
| C82 | the command `gr db dig performance-insights` | composition of C37, C38, C47, C57 over a world of oracles |
| C83 | the PostgreSQL column query as relational algebra over the catalogue | composed with C20 and C73 |
| C84 | the PostgreSQL index query as relational algebra over the catalogue | composed with C11 and C73 |
| C85 | the MySQL catalogue queries over information_schema | composed with C39, C11 and C73 |
| C86 | value → escaped JSON → page text → HTML tokenizer → JavaScript literal reader | every value |
| C87 | report values → view models with nil slices → file (C86) → client constructors → cards | composed with C42, C09 and C86 |
| C88 | report → view models → file (C86) → tables, links and stable sort | composed with C81 and C86 |
| C89 | environment → data source name → the driver's reader | all texts |
| C90 | variables → request bodies → answers → examination | all values, all servers |
| C91 | working directory and `-o` → logged path → file | all paths |
| C92 | tooltip template → HTML tokenizer → text and tags | all texts without markup; negations for texts with it |
| C93 | answers → report → view models → JSON in the template → page → rows of the charts | all answers with finite loads; negation for an infinite one |
| C94 | arguments → cobra's search for the command, pflag's parsing, required flags → command run, variables, exit status | all argument lists |
| C95 | report → command text → words of the shell → flags → run of the command | all reports, all selections of plain targets; negations for others and for the load report |
| C96 | diagram text → tokens → statements of mermaid's sequence diagrams | all traces; lexer rules in order, statements the program writes |
| C97 | text of HASURA_URL → url.Parse → path.Join → String → http.NewRequest → checks of the transport | texts of the characters listed there |
| C98 | query text → placeholders → SQL statement → rows → structs | all catalogues, schemas, names; Faithful: the server answers what the statement means, in any order the keys allow |
| C99 | `LogNewIndexTargets`, `CombinationString`, `RoundTrip`, log levels | the log as a list of lines; independence of secrets as a statement about two runs |

## Trusted base

* Lean's kernel.
* The axioms listed below: only `propext`, `Classical.choice` and `Quot.sound`. No axiom is declared here,
  and there is no `sorry`, `admit`, `native_decide` or `bv_decide`.
* The reading of the Go and TypeScript source expressed in the model definitions.
* The specifications: the `Spec.lean` files and the sections marked as specification in single-file areas.

The following specifications describe programs outside the repository. They are written from
their documentation, not from their source.

* The SQL lexer of `Verif/Sql/Lex.lean`: words, quoted names with doubled quotes, string literals, punctuation.
* The connection string grammar of `lib/pq` (`Infra/PgConfig.lean`) and of the shell (POSIX word splitting,
  `Client/Shell.lean`).
* Names and shapes of the syntax trees of the CockroachDB-derived PostgreSQL parser (`PgScope/Ast.lean`) and of
  TiDB's parser with the order of `Accept` (`MyScope/Ast.lean`). The parsers are functions from text to these trees; nothing is assumed about them.
  `tree.Name.Normalize` and `CIStr.L` are abstract lower-casing functions.
* PostgreSQL's `quote_identifier` as used by `PG_GET_INDEXDEF` (`Cmd/Chain.lean`).
* JavaScript: `Array.prototype.sort` is stable or not, objects keep insertion order of string keys (integer-like keys
  are noted where they matter).

* Mermaid 9.2.2's sequence diagrams (`Client/Mermaid.lean`): lexer, the part of the grammar the page uses, the check of
  activations and the limit on text length. Only whether a diagram is drawn is modelled, not its layout.
* Where a file describes the reading of flags by cobra and pflag, the escaping of Go's `html/template` or the reading of a page by the browser's
  HTML tokenizer, the part used is written out in that file as a specification.

## Not modelled

Network protocols and drivers, SQL parsers, the format of log lines, layout and drawing by the browser, ApexCharts and mermaid. The table below lists which Lean files cite each source file; the
list after it names the source files without any model.

### Model files per source file

| source | Lean files |
|---|---|
| `client/src/App.svelte` | `Report/Loads`, `Report/Page` |
| `client/src/Mermaid.svelte` | `Report/Traces` |
| `client/src/components/ExaminationResultTable.svelte` | `Client/Ddl`, `Report/Page` |
| `client/src/components/ExplainText.svelte` | `Client/PlanView`, `Report/Page` |
| `client/src/components/ExplainTree/ExplainTree.ts` | `Client/ExplainChart`, `Report/Page` |
| `client/src/components/ExplainTree/ExplainTreeChart.ts` | `Client/PlanView` |
| `client/src/components/IndexSuggestion.svelte` | `Client/Shell`, `Report/Again`, `Report/Page` |
| `client/src/contexts/HighlightIndexContext.ts` | `Client/PlanView` |
| `client/src/lib/GrChart.ts` | `Client/Panels`, `Client/Tooltip` |
| `client/src/main.ts` | `Report/Structure` |
| `client/src/mermaid.ts` | `Client/Mermaid`, `Report/Structure` |
| `client/src/models/BaseSuggestData.ts` | `Report/Page` |
| `client/src/models/DbLoad.ts` | `Client/Load`, `Cmd/PerfInsights`, `Report/Loads` |
| `client/src/models/DbLoadOfSql.ts` | `Client/Load`, `Cmd/PerfInsights`, `Report/Loads` |
| `client/src/models/DigData.ts` | `Report/Loads`, `Report/Traces` |
| `client/src/models/ExaminationCommandOption.ts` | `Client/Shell`, `Report/Page` |
| `client/src/models/ExaminationIndexResult.ts` | `Report/Page` |
| `client/src/models/HasuraIndexTarget.ts` | `Client/Ddl` |
| `client/src/models/HasuraSuggestData.ts` | `Report/Page` |
| `client/src/models/IndexTarget.ts` | `Client/Ddl`, `Client/Shell`, `Index/Model`, `Report/Page` |
| `client/src/models/JaegerData.ts` | `Report/Traces` |
| `client/src/models/MysqlSuggestData.ts` | `Report/Page` |
| `client/src/models/OtelCompactedTrace.ts` | `Report/Traces` |
| `client/src/models/OtelTraceSpan.ts` | `Client/Diagram`, `Report/Traces` |
| `client/src/models/PerformanceInsightsData.ts` | `Report/Loads` |
| `client/src/models/PostgresIndexTarget.ts` | `Client/Ddl` |
| `client/src/models/PostgresSuggestData.ts` | `Report/Page` |
| `client/src/models/SuggestData.ts` | `Client/Ddl`, `Report/Page` |
| `client/src/models/TimeDbLoad.ts` | `Client/Load`, `Cmd/PerfInsights`, `Report/Loads` |
| `client/src/models/explain_data/MysqlAnalyzeData.ts` | `Client/PlanView` |
| `client/src/models/explain_data/PostgresAnalyzeData.ts` | `Client/PlanView` |
| `client/src/models/trace_diagram/TraceNode.ts` | `Client/Diagram` |
| `client/src/models/trace_diagram/TraceRepeatNode.ts` | `Client/Diagram` |
| `client/src/models/trace_diagram/TraceTree.ts` | `Client/Diagram`, `Report/Traces` |
| `client/src/pages/dig/jaeger/DigJaegerPage.svelte` | `Report/Traces` |
| `client/src/pages/dig/jaeger/TraceDiagram.svelte` | `Client/Mermaid` |
| `client/src/pages/dig/jaeger/TracesTable.svelte` | `Report/Traces` |
| `client/src/pages/dig/performance_insights/DbLoadChart.ts` | `Client/Panels` |
| `client/src/pages/dig/performance_insights/DbLoadRankingChart.ts` | `Client/Load`, `Client/Panels`, `Report/Loads` |
| `client/src/pages/dig/performance_insights/DbTokenizedLoadChart.ts` | `Client/Panels` |
| `client/src/pages/dig/performance_insights/DbTokenizedLoadRankingChart.ts` | `Client/Load`, `Client/Panels` |
| `client/src/pages/dig/performance_insights/DigPerformanceInsightsPage.svelte` | `Report/Loads` |
| `client/src/pages/dig/performance_insights/HeaviestSqlRanking.svelte` | `Client/Panels` |
| `client/src/pages/dig/performance_insights/HeaviestTokenizedSqlRanking.svelte` | `Client/Panels` |
| `client/src/pages/dig/performance_insights/HeavySqlTimeline.svelte` | `Client/Panels` |
| `client/src/pages/dig/performance_insights/HeavyTokenizedSqlTimeline.svelte` | `Client/Panels` |
| `client/src/pages/dig/performance_insights/util/CommandText.ts` | `Client/Shell`, `Report/Again` |
| `client/src/pages/dig/performance_insights/util/Databases.ts` | `Client/Panels` |
| `client/src/pages/dig/performance_insights/util/LoadTooltip.ts` | `Client/Tooltip` |
| `client/src/pages/dig/performance_insights/util/chart/LoadPropChartSereies.ts` | `Client/Load`, `Report/Loads` |
| `client/src/pages/dig/performance_insights/util/chart/TokenizedLoad.ts` | `Client/Load` |
| `client/src/pages/suggest/hasura/ExplainChart.svelte` | `Client/Tooltip` |
| `client/src/pages/suggest/hasura/SuggestHasuraPage.svelte` | `Report/Page` |
| `client/src/pages/suggest/mysql/ExplainAnalyzeChart.svelte` | `Client/PlanView`, `Client/Tooltip` |
| `client/src/pages/suggest/postgres/ExplainAnalyzeChart.svelte` | `Client/PlanView`, `Client/Tooltip` |
| `client/src/stores/gr_param.ts` | `Report/Loads`, `Report/Page`, `Report/Traces` |
| `cmd/app.go` | `Cmd/Line` |
| `cmd/app/dig.go` | `Cmd/Line` |
| `cmd/app/dig/jaeger.go` | `Cmd/Jaeger`, `Cmd/Line`, `Cmd/ToldDig`, `Report/Traces` |
| `cmd/db.go` | `Cmd/Line` |
| `cmd/db/dig.go` | `Cmd/Line` |
| `cmd/db/dig/performance_insights.go` | `Cmd/Line`, `Cmd/PerfInsights`, `Cmd/ToldDig`, `Pi/Model` |
| `cmd/db/suggest.go` | `Cmd/Line` |
| `cmd/db/suggest/hasura.go` | `Cmd/Line` |
| `cmd/db/suggest/hasura/postgres.go` | `Cmd/Line`, `Cmd/Suggest`, `Cmd/Told`, `Cmd/Verbose`, `Infra/HasuraClient`, `Infra/Suggest`, `Report/Again`, `Report/Page` |
| `cmd/db/suggest/mysql.go` | `Cmd/Line`, `Cmd/Suggest`, `Cmd/Told`, `Cmd/Verbose`, `Infra/MyConfig`, `Infra/Suggest`, `Report/Again`, `Report/Page` |
| `cmd/db/suggest/postgres.go` | `Cmd/Line`, `Cmd/Suggest`, `Cmd/Told`, `Cmd/Verbose`, `Infra/Suggest`, `Report/Again`, `Report/Page` |
| `cmd/flag/app_flag.go` | `Cmd/Jaeger` |
| `cmd/root.go` | `Cmd/Line`, `Cmd/Verbose`, `Report/Again` |
| `cmd/util/log.go` | `Cmd/Told`, `Cmd/Verbose` |
| `cmd/version.go` | `Cmd/Line` |
| `database/dmodel/examination_index_result.go` | `Examine/Model`, `Report/Page` |
| `database/dmodel/examination_result.go` | `Examine/Model`, `Report/Page` |
| `database/dmodel/index_column.go` | `Index/Model`, `Regex/Model` |
| `database/dmodel/index_target.go` | `Cmd/Verbose`, `Index/Model`, `Regex/Model`, `Report/Page` |
| `database/dservice/build_single_table_explain_results.go` | `SingleTable/Model` |
| `database/dservice/dparser/build_table_fields.go` | `Fields/Flat`, `Fields/Model` |
| `database/dservice/dparser/field.go` | `Fields/Model` |
| `database/dservice/dparser/field_column.go` | `Builder/Model` |
| `database/dservice/dparser/field_type.go` | `Builder/Model` |
| `database/dservice/dparser/index_field.go` | `Builder/Model` |
| `database/dservice/dparser/index_target_builder.go` | `Builder/Model`, `Fields/Props` |
| `database/dservice/dparser/index_target_table.go` | `Builder/Model` |
| `database/dservice/dparser/stmt_scope.go` | `Fields/Model`, `MyScope/Model`, `PgScope/Model` |
| `database/dservice/dparser/table.go` | `Fields/Model` |
| `database/dservice/dparser/table_schema.go` | `Builder/Model`, `Schemas/Model` |
| `database/dservice/examiner.go` | `Examine/Model` |
| `database/dservice/existing_index_remover.go` | `Cmd/Chain`, `Remover/Model` |
| `database/hasura/hservice/index_examiner.go` | `Examine/Ddl`, `Infra/HasuraClient` |
| `database/hasura/hservice/index_getter.go` | `Cmd/Chain` |
| `database/hasura/hservice/index_suggester.go` | `Cmd/Chain`, `Cmd/Suggest` |
| `database/hasura/hservice/parser/collect_table_schemas.go` | `Builder/Model`, `MyScope/Model`, `Schemas/Model` |
| `database/hasura/hservice/parser/index.go` | `MyScope/Model`, `PgScope/EndToEnd` |
| `database/mysql/mmodel/explain_analyze_result_line.go` | `MysqlPlan/Model`, `MysqlPlan/Title` |
| `database/mysql/mmodel/explain_analyze_tree.go` | `Client/PlanView` |
| `database/mysql/mmodel/explain_analyze_tree_node.go` | `Client/ExplainChart`, `Client/PlanView`, `SingleTable/Pg` |
| `database/mysql/mservice/explainer.go` | `MysqlPlan/Model`, `MysqlPlan/Nodes` |
| `database/mysql/mservice/index_examiner.go` | `Examine/Ddl` |
| `database/mysql/mservice/index_getter.go` | `Cmd/Chain` |
| `database/mysql/mservice/index_suggester.go` | `Cmd/Chain`, `Cmd/Suggest` |
| `database/mysql/mservice/parse.go` | `Cmd/Chain` |
| `database/mysql/mservice/parser/collect_stmt_scopes.go` | `MyScope/Ast`, `MyScope/Model`, `PgScope/Model` |
| `database/mysql/mservice/parser/collect_table_names.go` | `MyScope/Model`, `PgScope/Model` |
| `database/mysql/mservice/parser/collect_table_schemas.go` | `Builder/Model`, `MyScope/Model`, `Schemas/Model` |
| `database/mysql/mservice/parser/index.go` | `MyScope/Model` |
| `database/postgres/pmodel/explain_analyze_result_node.go` | `PgPlan/Model`, `PgPlan/Title` |
| `database/postgres/pmodel/explain_analyze_tree.go` | `Client/PlanView`, `SingleTable/Pg` |
| `database/postgres/pmodel/explain_analyze_tree_node.go` | `Client/PlanView`, `PgPlan/Model`, `SingleTable/Pg` |
| `database/postgres/pservice/ast/ast_walker.go` | `PgScope/Ast` |
| `database/postgres/pservice/explain_analyze_tree_builder.go` | `PgPlan/Model` |
| `database/postgres/pservice/explainer.go` | `MysqlPlan/Model` |
| `database/postgres/pservice/index_examiner.go` | `Examine/Ddl` |
| `database/postgres/pservice/index_getter.go` | `Cmd/Chain` |
| `database/postgres/pservice/index_suggester.go` | `Cmd/Chain`, `Cmd/Suggest` |
| `database/postgres/pservice/parse.go` | `Cmd/Chain` |
| `database/postgres/pservice/parser/collect_stmt_scopes.go` | `MyScope/Ast`, `MyScope/Model`, `PgScope/Model` |
| `database/postgres/pservice/parser/collect_table_names.go` | `MyScope/Model`, `PgScope/Model` |
| `database/postgres/pservice/parser/collect_table_schemas.go` | `Builder/Model`, `MyScope/Model`, `Schemas/Model` |
| `database/postgres/pservice/parser/index.go` | `MyScope/Model`, `PgScope/EndToEnd` |
| `docker/jaeger_mock/mock/main.go` | `Cmd/Line`, `Cmd/Verbose` |
| `html/build_option.go` | `Report/Json`, `Report/Loads`, `Report/Page`, `Report/Traces` |
| `html/html_builder.go` | `Report/Json`, `Report/Structure` |
| `html/viewmodel/vm_db_load.go` | `Report/Loads` |
| `html/viewmodel/vm_db_load_of_sql.go` | `Report/Loads` |
| `html/viewmodel/vm_examination_command_option.go` | `Cmd/Suggest`, `Report/Page` |
| `html/viewmodel/vm_index_target.go` | `Report/Page` |
| `html/viewmodel/vm_mysql_explain_analyze_node.go` | `Client/PlanView`, `Report/Page` |
| `html/viewmodel/vm_otel_compact_trace.go` | `Cmd/Jaeger`, `Otel/Times`, `Report/Traces` |
| `html/viewmodel/vm_otel_trace_span.go` | `Report/Traces` |
| `html/viewmodel/vm_postgres_explain_analyze_node.go` | `Client/PlanView`, `Report/Page` |
| `html/viewmodel/vm_time_db_load.go` | `Cmd/PerfInsights`, `Report/Loads` |
| `infra/aws/performance_insights.go` | `Cmd/PerfInsights`, `Pi/Model` |
| `infra/aws/pi_sql_load_avg.go` | `Pi/Model`, `Report/Loads` |
| `infra/aws/rds.go` | `Cmd/PerfInsights` |
| `infra/aws/rds_db.go` | `Cmd/PerfInsights` |
| `infra/hasura/client.go` | `Cmd/Verbose`, `Infra/Address`, `Infra/Fetch`, `Infra/Hasura`, `Infra/HasuraClient`, `Infra/HasuraHttp` |
| `infra/hasura/column_info.go` | `Cmd/Catalogue`, `Infra/Fetch`, `Infra/Hasura` |
| `infra/hasura/config.go` | `Infra/Address`, `Infra/HasuraClient` |
| `infra/hasura/explain_request_body.go` | `Infra/HasuraClient` |
| `infra/hasura/index_info.go` | `Cmd/Catalogue`, `Cmd/Chain`, `Infra/Fetch`, `Infra/Hasura` |
| `infra/hasura/query.go` | `Infra/HasuraClient` |
| `infra/hasura/run_sql_args.go` | `Infra/Hasura`, `Infra/HasuraClient` |
| `infra/hasura/run_sql_response.go` | `Infra/HasuraClient`, `Infra/HasuraHttp` |
| `infra/jaeger/client.go` | `Infra/Address`, `Infra/HasuraClient`, `Otel/Fetch` |
| `infra/mysql/column_info.go` | `Cmd/MyCatalogue`, `Infra/Fetch`, `Infra/Hasura`, `Schemas/Model` |
| `infra/mysql/config.go` | `Infra/HasuraClient`, `Infra/MyConfig` |
| `infra/mysql/db.go` | `Cmd/Chain`, `Cmd/MyCatalogue`, `Cmd/Suggest`, `Infra/Fetch` |
| `infra/mysql/index_info.go` | `Cmd/MyCatalogue`, `Infra/Fetch`, `Infra/IndexInfo` |
| `infra/postgres/column_info.go` | `Cmd/Catalogue`, `Infra/Fetch`, `Infra/Hasura` |
| `infra/postgres/config.go` | `Infra/HasuraClient`, `Infra/PgConfig` |
| `infra/postgres/db.go` | `Cmd/Chain`, `Cmd/Suggest`, `Infra/Fetch` |
| `infra/postgres/index_info.go` | `Cmd/Catalogue`, `Cmd/Chain`, `Infra/Fetch` |
| `lab/micro/user/main.go` | `Cmd/Line`, `Cmd/Verbose` |
| `lib/env.go` | `Cmd/Jaeger`, `Infra/HasuraClient`, `Infra/MyConfig`, `Infra/PgConfig` |
| `lib/heap.go` | `Heap/Model` |
| `lib/http_transport.go` | `Cmd/Verbose` |
| `lib/join.go` | `Index/Model` |
| `lib/set.go` | `Builder/Model`, `PgScope/Model` |
| `lib/stack.go` | `Lib/Tree`, `MyScope/Model` |
| `lib/time.go` | `Lib/Times`, `Pi/Model` |
| `lib/uniq.go` | `Lib/Coll` |
| `main.go` | `Cmd/Line`, `Cmd/Verbose` |
| `otel/jaeger/trace_fetcher.go` | `Otel/Fetch` |
| `otel/jaeger/trace_picker.go` | `Otel/Picker` |
| `otel/jaeger/v1_converter.go` | `Otel/Model` |
| `otel/omodel/any_value.go` | `Otel/Model` |
| `otel/omodel/compact_info_collect_visitor.go` | `Otel/Times` |
| `otel/omodel/same_resource_count_visitor.go` | `Otel/Times` |
| `otel/omodel/span.go` | `Otel/Compact`, `Otel/Model`, `Otel/Times`, `Report/Traces` |
| `otel/omodel/trace_compacter.go` | `Otel/Compact` |
| `otel/omodel/trace_tree.go` | `Cmd/Jaeger`, `Otel/Compact`, `Otel/Times` |

Source files no model cites (entry points, type declarations, plain data, test fixtures and mocks included):

`client/index.html`, `client/roots/mermaid.html`, `client/src/components/DetailsCard.svelte`, `client/src/components/PlainText.svelte`, `client/src/dummies/DummyDigData.ts`, `client/src/dummies/DummySuggestData.ts`, `client/src/dummy.ts`, `client/src/lib/components/CommandCode.svelte`, `client/src/models/ExaminationResult.ts`, `client/src/models/IndexColumn.ts`, `client/src/models/explain_data/DbAnalyzeData.ts`, `client/src/models/explain_data/DbExplainData.ts`, `client/src/models/explain_data/PostgresExplainData.ts`, `client/src/models/trace_diagram/ITraceNode.ts`, `client/src/pages/suggest/hasura/ExaminationLineMenu.svelte`, `client/src/pages/suggest/mysql/SuggestMysqlPage.svelte`, `client/src/pages/suggest/postgres/SuggestPostgresPage.svelte`, `client/src/types/apexcharts.d.ts`, `client/src/types/gr_param.d.ts`, `client/src/types/svelte-chota.d.ts`, `client/src/types/window.d.ts`, `client/src/vite-env.d.ts`, `cmd/flag/db_flag.go`, `cmd/flag/global_flag.go`, `database/dmodel/single_table_explain_result.go`, `database/dservice/dparser/column_schema.go`, `database/mysql/mmodel/analyze_result_line.go`, `database/mysql/mservice/parser/errors.go`, `docker/jaeger_mock/mock/dumper.go`, `docker/jaeger_mock/mock/mock_dependency_reader.go`, `docker/jaeger_mock/mock/mock_span_reader.go`, `docker/jaeger_mock/mock/trace.go`, `html/viewmodel/vm_examination_index_result.go`, `html/viewmodel/vm_examination_result.go`, `html/viewmodel/vm_index_column.go`, `infra/aws/aws.go`, `infra/aws/pi_time_value.go`, `infra/hasura/explain_response.go`, `infra/jaeger/trace.go`, `infra/rdb/db.go`, `injection/bin_info.go`, `injection/client_dist.go`, `lab/micro/user/db.go`, `lab/micro/user/otel.go`, `lib/errors.go`, `lib/ptr.go`, `lib/slice.go`, `lib/sort.go`, `mocks/jaeger/Reader.go`, `otel/omodel/trace_visitor.go`.

### Axioms per theorem

`lake env lean` on `#print axioms` for every theorem of the manifest gives these groups.

* no axioms (10 theorems): `Verif.SingleTable.C25_listed_twice`, `Verif.SingleTable.C25_not_topmost`, `Verif.MysqlPlan.C26_monotone_in_average`, `Verif.Otel.C27_cycle_lost`, `Verif.Otel.C27_duplicate_id_replaced`, `Verif.Infra.C39_not_contiguous`, `Verif.SingleTable.C53_panics`, `Verif.Otel.C55_tie`, `Verif.Client.Panels.C79_ranking_totals`, `Verif.Cmd.Jaeger.C81_count_wraps`.
* `propext` (16 theorems): `Verif.Index.C04_list_ok_iff`, `Verif.Remover.C11_error`, `Verif.SingleTable.C25_once_partial`, `Verif.MysqlPlan.C26_nonneg`, `Verif.Otel.C30_wraps`, `Verif.Otel.C30_backward`, `Verif.Infra.C39_total`, `Verif.Infra.C39_nameless_panics`, `Verif.Client.Chart.C46_start`, `Verif.Client.Load.C47_leading_dates_wrong`, `Verif.Client.Load.C47_repeated_statement_shifts`, `Verif.SingleTable.C53_no_panic_partial`, `Verif.Cmd.C58_ext`, `Verif.Cmd.C59_no_candidates_is_an_error`, `Verif.Cmd.C59_refused`, `Verif.Report.Again.C95_chosen`.
* `Quot.sound`, `propext` (37 theorems): `Verif.Index.C04_list_error_iff`, `Verif.Builder.C14_pk_only_dropped`, `Verif.Fields.C17_fields_real`, `Verif.Fields.C18_flat_error`, `Verif.Fields.C19_type_exact`, `Verif.Fields.C19_condition_wins_partial`, `Verif.Fields.C17_fields_real`, `Verif.Schemas.C20_exact`, `Verif.PgPlan.C23_children_deeper`, `Verif.SingleTable.C25_sound_partial`, `Verif.SingleTable.C25_covers`, `Verif.MysqlPlan.C26_monotone_in_loops`, `Verif.Lib.C35_disjoint`, `Verif.Lib.C35_empty`, `Verif.Lib.C35_diverges`, `Verif.Pi.C37_half_hour_zone_loses`, `Verif.Client.Shell.C43_option`, `Verif.Client.Diagram.C44_repeat`, `Verif.Client.Chart.C46_nested`, `Verif.Client.Load.C47_series_partial`, `Verif.Otel.C55_most_consuming`, `Verif.Otel.C56_ids_distinct`, `Verif.Pi.C57_fails`, `Verif.Fields.C66_listed_is_mentioned`, `Verif.Fields.C66_no_crash`, `Verif.Fields.C66_unnamed_sub_crashes`, `Verif.Fields.C67_used_is_listed`, `Verif.Fields.C67_outer_is_listed`, `Verif.Client.PlanView.C76_texts`, `Verif.Client.Panels.C79_tokenized_bars`, `Verif.Client.Panels.C79_databases`, `Verif.Cmd.PerfInsights.C82_chart`, `Verif.Cmd.Catalogue.C83_columns`, `Verif.Cmd.Catalogue.C83_primary`, `Verif.Cmd.Catalogue.C83_primary_partial`, `Verif.Cmd.Told.C91_logged_partial`, `Verif.Cmd.Told.C91_absolute_misplaced`.
* `Classical.choice`, `Quot.sound`, `propext` (417 theorems): all the others.

## Where the code does not do what one would expect

Found while modelling. Those marked with an id are proved as negations (theorems with concrete witnesses).

Index options and examination
* With `-v` the whole address of every request is logged, with a password that stands in it (C99_url_password_logged). The suggestions logged have a stray `)` and cannot be passed to `-i` (C99_line_no_option).
* The command that the Performance Insights page shows, `gr db suggest -o … -q …`, lacks the kind of database; `gr` always refuses it with `unknown shorthand flag: 'q'` (C95_load_refused).
* A suggestion with a name outside `\w` is checked by default on the page and makes the whole examine command fail (C95_unsafe_refused).
* An unquoted query is cut to its first word without an error: no command declares `Args`, and cobra lets further words pass (C94_extra_ignored).
* `gr db sugest …` prints the help and exits with status 0 (C94_typo).
* An index text with a newline is accepted and the second line ignored (C03).
* Hasura checks `-i` texts only after its first reads (C42). Without candidates the suggesters fail with "empty
  slice" (C59). `EXPLAIN ANALYZE` runs data-changing statements before the statement was looked at (C60).
* The targets in the suggested command are not escaped (C43).

Suggestions
* A column first seen in an aggregation hides its use in a condition (C19).
* An unqualified name found in two tables is attributed by map order (C15).
* Correlated subqueries two levels below are rejected.
* PostgreSQL: comma in FROM keeps only the last item, and a derived table before a comma panics (C49).
* PostgreSQL: `JOIN ... USING`, `NATURAL` are refused; a CTE named like a table hides it inside its own definition;
  subqueries in OFFSET, in ORDER BY of functions and of windows are skipped (C65).
* PostgreSQL: UNION, VALUES or parentheses at the root panic; a window frame without end bound panics; `SELECT * FROM
  (t)` does not terminate in the scope collector alone, but is not reachable from the command (C50, C69).
* PostgreSQL: `WITH a AS (VALUES (1)) SELECT id FROM tasks` loses the error that refuses WITH, and the analysis panics (C69).
* PostgreSQL: a doubly parenthesised subquery gives a nil panic; DISTINCT ON subqueries panic (C69).
* PostgreSQL: quoted names are lowercased among the table names but kept in scopes.
* PostgreSQL: an outer alias equal to the name of an inner table resolves to the inner table; expression subqueries see only
  the FROM items of the query directly around them; columns of expression subqueries take part in resolving unqualified
  names of the query around them.
* MySQL: only the root scope is used, so nested conditions are never suggested; columns of derived tables and camelCase columns
  are errors (C72).
* MySQL: refusals of WITH and VALUES can be lost; operands of COLLATE, of `@a := e`, ORDER BY of aggregates, USING columns and the schema
  qualifier of columns are ignored; WITH on a set operation counts the CTE as table (C70).
* Both: an empty statement list panics; MySQL ignores later statements (C73).
* PostgreSQL: existing indexes on columns that need quotes are not recognised (C75). Partial indexes and INCLUDE columns
  count as covering. Dropped columns are listed, and a column in several indexes gives several rows.
* MySQL: functional indexes have a NULL column name.

Plans
* A MySQL line with `rows=1e+6` (newer servers) and a PostgreSQL row with `rows=7.00` (version 18) lose all their actual numbers without an error and count as taking no time (C51, C52).
* The estimate is not monotone below 0.0001 (C26). Without summary the last PostgreSQL plan group is dropped, a
  summary in the first line loses the text (C24). Per-table results contain duplicates and nodes that are not
  topmost (C25), and can panic (C53). ` on public.users` is read as table `public`, ` on "order-items"` as `order` (C52).

Traces and load
* A call that outlasts its caller (asynchronous work) makes the caller's own time wrap around to centuries, and the caller is named as the most time consuming service although the other ran longer (C55_late).
* The load report only covers the first page of database instances, and the first page of each answer: the markers of further pages are dropped (C82).
* With a start less than a week ago, the load report asks AWS about the future (C82).
* Choosing a tokenized statement none of whose plain forms is among the ten heaviest of some half day throws a `TypeError` on the page, although the panel has a "No data" row for it (C82).
* A count of 2³¹ or more is cut to 32 bits without a message; a start in the future yields an empty page instead of an error (C81).
* Spans on or below parent cycles are dropped, duplicate ids: the last wins (C27); equal ids can panic compaction (C29).
  Durations are unsigned and wrap (C30): the time a child runs after the end of its span is subtracted from the time of the span (`C30_exact`). An attribute without value panics (C54). Ties are broken by map order
  (C55).
* A non-positive interval does not terminate (C35). The last window may end up to half an hour late (C36).
* In every time zone that is not a whole number of hours from UTC (India's, for example) all loads are lost and both halves of the page are empty (C37, C82). A nil key panics (C38).

Catalogue and connections
* `HASURA_URL=localhost:8080` (no scheme) is accepted, and then every request fails with `unsupported protocol scheme "localhost"` (C97_local).
* With the address that Hasura's console shows, `https://…/v1/graphql`, requests go to `/v1/graphql/v2/query`, which does not exist (C97_twice).
* With `--json-variables '{"id": 9007199254740993}'` Hasura is asked about 9007199254740992: integers above 2^53 are rounded, so plan and times are those of another row (C90).
* A GraphQL query that fails (unknown field, missing permission) is answered with status 200; `--with-examine` takes it for a run and reports times for every index (C90).
* A MySQL user name with a colon logs in as the part before it, with the rest in front of the password (C89).
* Of a MySQL database name with `?` the connection uses the part before it, while the catalogue is asked for the whole name (C89).
* `DB_PARAM_TEXT=loc=Asia/Tokyo` is refused: a slash in the parameters or in the database name is taken for the separator (C89).
* If a table has an index on an expression, MySQL shows NULL as its column, scanning it into a string fails, and `gr db suggest mysql` stops with an error instead of suggestions (C85, C98_mysql_answers).
* A prefix index, an invisible index or a FULLTEXT index hides the suggestion of an ordinary index on the same columns (C85).
* A partial index (`WHERE …`), a hash index or an index left invalid by `CREATE INDEX CONCURRENTLY` hides the suggestion of an ordinary index on the same columns (C84).
* The columns after INCLUDE are read as key columns: an index on `(a) INCLUDE (b)` hides the suggestion `(a, b)`, and `(a)` is suggested again (C84).
* A column that is in a composite primary key, but not its first, gets no index of its own, although the primary key does not serve it (C84).
* With `PRIMARY KEY (a) INCLUDE (b)` the column `b` is taken for part of the primary key, and no index on `b` is suggested (C83).
* Partitioned and foreign tables are refused as "unknown table … perhaps using VIEW?" (C83).
* Dropped columns are listed as columns under the name PostgreSQL leaves behind; harmless unless a query contains such a name (C83).
* Index rows that are not contiguous split an index; a first row without name panics (C39). Short rows panic, an empty table list gives
  `IN ()` (C40). Quotes and backslashes in PostgreSQL settings are not escaped, and `sslmode=disable` always wins (C41).

Report page
* A service named `link-shortener`, `note-service`, `end-user` or `aws-xray` makes mermaid refuse the diagram of every trace that calls it: names are not quoted or aliased, and the first begins with a word of the grammar, the last has `-x`, an arrow (C96_blocked).
* A trace with a few hundred nested calls is longer than mermaid's limit of 50000 characters; instead of the diagram a picture with an error is shown (C96_too_long).
* One infinite load in the answers of the service makes `html/template` write `null` for the data of the page: `gr db dig performance-insights` reports success and the page stays blank (C93).
* Tooltips are built by string interpolation without escaping: a query `… '<img src=x onerror=…>'` observed by Performance Insights becomes an element of the report page, with its handler; `-> Table scan on <temporary>` is shown as `-> Table scan on ` (C92).
* The tooltip of a PostgreSQL node whose first row came after 0.000 ms shows `-` for its time, the same as a node that was never executed (C92).
* With an absolute `-o /tmp/r.html` the log says the report is at `<working directory>/tmp/r.html`, where there is none (C91).
* `JAEGER_UI_URL=localhost:16686` (or any address without a scheme) is accepted, but the page throws a TypeError in `new URL` and stays blank as soon as a trace was found (C88).
* A path in `JAEGER_UI_URL` (`https://proxy/jaeger`) is dropped from all links (C88).
* Start and end are cut to milliseconds one by one, so a trace can be listed below one that was almost a millisecond faster, and durations are off by up to a millisecond (C88).
* `suggest … --with-examine` without anything to examine (all indexes exist already, or the names are unusual): the command succeeds, but `indexResults` is `null`, the page throws a TypeError and stays blank (C87).
* Without suggestions the MySQL and Hasura pages still say "Adding index to below columns might improve performance" above an empty list; the PostgreSQL page has no such card (C87).
* GraphQL variables with a member `__proto__` lose it on the page (C86).
* If a number cannot be encoded (NaN, infinity), the page is written with `null` as its data and the command reports success (C86).
* The SQL shown for an examined index does not quote its names: `userId` becomes `userid` in PostgreSQL, reserved words are
  refused, although the examined statement quotes both (C80).
* A node whose first row came at 0.000 ms is shown as not executed in the PostgreSQL tooltip (C77). A colon inside a value cuts
  the label of a MySQL plan line (C78).
* The ranking of the load report keeps showing the command for a statement after its database was unchecked, and the tokenized
  panels offer plain statements of databases that are not checked (C79).
* The command in the load report is not escaped and lacks the subcommand (C61).
* A newline in a service name unbalances the diagram (C45).
* Leading zero points carry the wrong date, and a repeated statement shifts its series (C47).
