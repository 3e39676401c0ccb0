{"id": "C01", "title": "Index option text: whatever is accepted is a plain identifier list", "statement": "If parsing an index option text such as the value of -i succeeds, the resulting target has a non-empty table name and at least one column, and the table name and every column name consist only of letters, digits and underscore. If the text has a bad part, an error is returned and no target.", "quantifier": "every text (any characters, any length, with or without newlines)", "why_tests_cant": "The set of texts is infinite and the regular expression's priority rules decide how a text is cut; only a proof covers every cut.", "anchors": ["database/dmodel/index_target.go:18-65 NewIndexTargetFromText", "database/dmodel/index_column.go NewIndexColumn"]}
{"id": "C02", "title": "Index option text: printing and parsing are inverse", "statement": "Printing a target as table:c1+c2+... (what the result page puts into the suggested command) and parsing that text gives back exactly the same target; and a one-line text is accepted exactly when it has that form.", "quantifier": "every target with word-only names and at least one column; every one-line text", "why_tests_cant": "Requires agreement of a printer and a regexp based parser on an infinite set.", "anchors": ["database/dmodel/index_target.go:43-85 NewIndexTargetFromText, CombinationString", "client/src/models/IndexTarget.ts toGrIndexOption"]}
{"id": "C03", "title": "Index option text: no part of the text is ignored", "statement": "If a text is accepted, the whole text is the printed form of the resulting target: nothing before, after or between is dropped.", "quantifier": "every text, including texts with newlines", "why_tests_cant": "A universally quantified claim over texts; it is in fact false for texts containing a newline, which no listed unit test exercises.", "anchors": ["database/dmodel/index_target.go:18,43-65 wholeWordReg / indexTargetReg"]}
{"id": "C04", "title": "Index option list: all or nothing, in order", "statement": "Parsing a list of option texts either returns one target per text, in the same order, or returns the error of the first bad text and no targets.", "quantifier": "every list of texts", "why_tests_cant": "Every length and every position of the first bad text.", "anchors": ["database/dmodel/index_target.go:30-41 NewIndexTargetsFromTexts"]}
{"id": "C05", "title": "Index target comparisons are equivalences", "statement": "Equals on index targets is reflexive, symmetric and transitive and holds exactly when table and columns agree; the column comparison used to detect existing indexes is reflexive, symmetric and transitive, ignores letter case only, and is sensitive to column order and count.", "quantifier": "all pairs and triples of index targets", "why_tests_cant": "Relational laws over pairs and triples of unbounded lists.", "anchors": ["database/dmodel/index_target.go:87-130 Equals, HasSameIdxColumns"]}
{"id": "C06", "title": "DDL statements for a safe target say exactly what was asked", "statement": "For a target that passes the safety check, the CREATE/ALTER statement sent for MySQL, PostgreSQL and Hasura reads, token by token, as adding an index of the given name on exactly the given table and exactly the given columns in order; no name can close its quotes and inject further SQL. The DROP statement names the same index (and table on MySQL).", "quantifier": "every safe target and every generated index name, all three backends", "why_tests_cant": "Injection freedom is a statement about all identifiers; tests try a few.", "anchors": ["database/mysql/mservice/index_examiner.go CreateIndex, DropIndex", "database/postgres/pservice/index_examiner.go", "database/hasura/hservice/index_examiner.go", "database/dmodel/index_target.go:104-116 IsSafe", "database/dmodel/index_column.go SafeName"]}
{"id": "C07", "title": "Examination leaves no index behind", "statement": "Whatever operation fails during an examination run (original query, index creation, timed query), every index that was successfully created is dropped exactly once, by the same name on the same target, before the run returns and before the next index is created. If no drop fails, the set of indexes in the database after the run is the set before it.", "quantifier": "every list of targets and every assignment of success/failure to each database call", "why_tests_cant": "The failure schedule ranges over every call of every run; a unit test fixes one schedule.", "anchors": ["database/dservice/examiner.go:30-103 Run, examine"]}
{"id": "C08", "title": "Examination measures one index at a time, after the baseline", "statement": "The original query is timed before any index exists; each timed run of the query happens while exactly one examination index exists, the one of the target it is reported for (provided earlier drops succeeded).", "quantifier": "every list of targets and every failure schedule", "why_tests_cant": "A statement about every prefix of every interaction history.", "anchors": ["database/dservice/examiner.go:30-103"]}
{"id": "C09", "title": "Examination result is complete and faithful, errors are never masked", "statement": "The run succeeds exactly when no database call fails; then it has one entry per target in order, carrying the time measured for that target, and the baseline time. Otherwise no result is returned and the error is the first failing call's error; a drop failure is reported only when the timed query itself succeeded.", "quantifier": "every list of targets, every failure schedule, every measured time", "why_tests_cant": "All failure combinations including double faults.", "anchors": ["database/dservice/examiner.go:30-103"]}
{"id": "C10", "title": "Examination index names are short and safe", "statement": "The generated index name has at most 40 characters, only word characters, begins with (a prefix of) the run id and safe column names, and is used unchanged for both creation and removal.", "quantifier": "every run id, every target, every random suffix", "why_tests_cant": "Length and alphabet for unboundedly many columns of unbounded length.", "anchors": ["database/dservice/examiner.go:74-103 examine"]}
{"id": "C11", "title": "Existing-index filter removes exactly the covered targets", "statement": "Of the candidate targets, those for whose table an existing index has the same columns in the same order (ignoring letter case) are removed and all others are kept, in their original order; an error while reading existing indexes is returned instead of a result.", "quantifier": "every list of candidates and every list of existing indexes in any order", "why_tests_cant": "Set/order statement over all lists.", "anchors": ["database/dservice/existing_index_remover.go:26-57 Remove"]}
{"id": "C12", "title": "Existing-index filter is idempotent and insensitive to the order of existing indexes", "statement": "Filtering twice gives the same result as once; permuting the existing indexes or the order in which table names are looked up does not change the result; more existing indexes never yield more suggestions.", "quantifier": "every candidate list, every permutation and superset of the existing indexes", "why_tests_cant": "Metamorphic law over all permutations.", "anchors": ["database/dservice/existing_index_remover.go:26-57"]}
{"id": "C13", "title": "Suggested column combinations are exactly the efficient ones", "statement": "For one table, the candidate column lists are exactly the duplicate-free, non-empty sequences of its condition columns, plus the sequences of all its used columns in which the condition columns come first and the columns used only as plain references follow in name order (so none of the latter kind when some used column is neither). Nothing else is suggested and none of these is missed.", "quantifier": "every list of referenced columns with their kinds", "why_tests_cant": "The number of combinations grows factorially; exact characterisation needs induction.", "anchors": ["database/dservice/dparser/index_target_builder.go:66-132 buildIndexComposition, extractEfficientIndexes, compositeFieldColumns"]}
{"id": "C14", "title": "Suggestions made only of primary key columns are dropped, no others", "statement": "A column combination is dropped exactly when all of its columns belong to the table's primary key; every other combination survives, in order.", "quantifier": "every schema and every combination list", "why_tests_cant": "All schemas and lists.", "anchors": ["database/dservice/dparser/index_target_builder.go:134-152 removePkOnlyFields"]}
{"id": "C15", "title": "Suggestions are independent of map iteration order", "statement": "For the same query and schemas the suggestion list (content and order) is the same whatever order Go iterates its maps and sets in.", "quantifier": "every scope list, schema list and every iteration order", "why_tests_cant": "Iteration order is randomised by the runtime; a test sees one order per run.", "anchors": ["database/dservice/dparser/index_target_builder.go:24-64 Build", "database/dservice/dparser/index_target_table.go SortIndexTargetTable"]}
{"id": "C16", "title": "Suggestions are sorted", "statement": "The suggestion list is ordered by table name, then number of columns, then column names.", "quantifier": "every input of the builder", "why_tests_cant": "Holds for all outputs, of any length.", "anchors": ["database/dservice/dparser/index_target_table.go SortIndexTargetTable"]}
{"id": "C17", "title": "Suggestions only name real columns of real tables", "statement": "Every suggested table is one of the schemas read from the database and every suggested column is a column of that schema.", "quantifier": "every parsed query shape (scopes with joins, aliases, subqueries, CTEs) and every schema", "why_tests_cant": "Scope nesting is unbounded.", "anchors": ["database/dservice/dparser/build_table_fields.go:24-344", "database/dservice/dparser/index_target_builder.go:40-64"]}
{"id": "C18", "title": "Unresolvable names are errors, never guesses", "statement": "When the query names a column or table that the scopes and schemas do not define, the suggestion step returns an error instead of a list.", "quantifier": "every scope tree and schema", "why_tests_cant": "All scope trees.", "anchors": ["database/dservice/dparser/build_table_fields.go:165-344"]}
{"id": "C19", "title": "Condition use dominates plain reference", "statement": "A column that is used in any condition is treated as a condition column whatever the order of uses, and each column is listed once per table.", "quantifier": "every sequence of column uses", "why_tests_cant": "All sequences and permutations of uses.", "anchors": ["database/dservice/dparser/build_table_fields.go:195-211 addReferencingField"]}
{"id": "C20", "title": "Table schemas are grouped faithfully", "statement": "From the column rows of the catalogue, each requested table gets exactly its own rows' columns in row order, its primary key columns are exactly the rows flagged as such in order, and the result is aligned with the requested names; a missing table is reported as an error by the caller.", "quantifier": "every list of requested tables and every list of column rows", "why_tests_cant": "All interleavings of rows.", "anchors": ["database/dservice/dparser/table_schema.go:14-47 CreateTableSchemas"]}
{"id": "C21", "title": "MySQL plan tree mirrors the indentation", "statement": "The tree built from EXPLAIN ANALYZE text has the plan lines in their textual order as its pre-order, each at the depth of its indentation; printing any plan tree with 4 spaces per level and parsing it back gives the same tree.", "quantifier": "every plan tree of any depth and width", "why_tests_cant": "Trees of unbounded depth and fan-out.", "anchors": ["database/mysql/mservice/explainer.go:33-70 buildExplainNode", "database/mysql/mmodel/explain_analyze_result_line.go:67-90"]}
{"id": "C22", "title": "MySQL plan: malformed indentation is rejected, never misattached", "statement": "The builder fails exactly when some line is indented more than one level deeper than the line before it (or the first is indented); otherwise it succeeds and no line is lost or duplicated.", "quantifier": "every sequence of plan lines", "why_tests_cant": "Every sequence of depths.", "anchors": ["database/mysql/mservice/explainer.go:33-70"]}
{"id": "C23", "title": "PostgreSQL plan: each node hangs below its nearest less-indented predecessor", "statement": "In the tree built from the plan, pre-order is textual order, every child is indented deeper than its parent, and the parent is the nearest earlier node with smaller indentation; building never fails for lack of a parent.", "quantifier": "every sequence of nodes with arbitrary indentation widths", "why_tests_cant": "Arbitrary indentation sequences.", "anchors": ["database/postgres/pservice/explain_analyze_tree_builder.go:28-59"]}
{"id": "C24", "title": "PostgreSQL plan: no plan line is lost", "statement": "Grouping the plan output into nodes keeps every line before the summary exactly once and in order, and the summary text is exactly the remaining lines.", "quantifier": "every list of output lines, with or without a summary section", "why_tests_cant": "All line sequences; false when there is no summary section, which unit tests do not exercise.", "anchors": ["database/postgres/pservice/explain_analyze_tree_builder.go:71-128 groupToPlanLineNodes"]}
{"id": "C25", "title": "Per-table cost list accounts for plan nodes correctly", "statement": "In the per-table results derived from a plan tree, every listed entry is the time of the topmost node of a run of nodes on one table, every node that names a table is represented by such an entry, and no entry is listed twice.", "quantifier": "every plan tree", "why_tests_cant": "All tree shapes.", "anchors": ["database/dservice/build_single_table_explain_results.go:19-81"]}
{"id": "C26", "title": "Estimated total time of a MySQL plan line", "statement": "The estimate is average time times loops, except that an average of zero with more than 1000 loops counts 0.0001 per loop; it is never negative for non-negative inputs and is monotone in the loop count on each side.", "quantifier": "all non-negative averages and loop counts", "why_tests_cant": "Numeric law over all values.", "anchors": ["database/mysql/mmodel/explain_analyze_result_line.go:132-141"]}
{"id": "C27", "title": "Trace conversion keeps every span exactly once", "statement": "Converting fetched spans into trees puts every span whose ancestors do not form a cycle in exactly one place: below its parent if the parent was fetched, else as a root. No span is duplicated.", "quantifier": "every list of spans with distinct ids in any order, including missing parents", "why_tests_cant": "Arbitrary parent graphs and arrival orders.", "anchors": ["otel/jaeger/v1_converter.go:25-124"]}
{"id": "C28", "title": "Trace conversion: children are in start-time order", "statement": "After conversion every span's children are sorted by start time and are a permutation of the spans that name it as parent.", "quantifier": "every span list", "why_tests_cant": "All orders.", "anchors": ["otel/jaeger/v1_converter.go", "otel/omodel/span.go SortChildren"]}
{"id": "C29", "title": "Compaction keeps exactly the service-boundary spans with nearest kept ancestor", "statement": "The compacted tree contains exactly the root, the spans whose service differs from their parent's and the leaf database spans; each hangs below its nearest kept ancestor; order is preserved; leaf database spans carry the renamed service.", "quantifier": "every trace tree with pairwise distinct span ids", "why_tests_cant": "All trees.", "anchors": ["otel/omodel/trace_compacter.go:18-56", "otel/omodel/trace_tree.go:29-38"]}
{"id": "C30", "title": "Consumed time never exceeds a span's duration", "statement": "The time attributed to a span itself is its duration minus the time covered by its children, and lies between zero and its duration.", "quantifier": "every span with any number of overlapping children", "why_tests_cant": "Interval arithmetic on unsigned integers over all configurations; false for children that outlive their parent.", "anchors": ["otel/omodel/span.go:70-90 CalcConsumedTime"]}
{"id": "C31", "title": "Same-service access count is the true maximum", "statement": "The count shown for a trace is the maximum, over all services, of how many spans of the (compacted) trace belong to it as counted by the visitor.", "quantifier": "every trace tree, every map order", "why_tests_cant": "All trees and map orders.", "anchors": ["otel/omodel/same_resource_count_visitor.go", "otel/omodel/trace_tree.go MaxSameServiceAccessCount"]}
{"id": "C32", "title": "Bounded heap keeps the largest k", "statement": "After any sequence of pushes, popping everything returns, in ascending order, the k largest pushed elements (all if fewer than k were pushed), for a strict weak order.", "quantifier": "every limit, every push sequence, every strict weak order", "why_tests_cant": "All sequences; the heap shape depends on every earlier push.", "anchors": ["lib/heap.go:9-71 LimitedHeap"]}
{"id": "C33", "title": "Slow trace picker returns the slowest n, slowest first", "statement": "Picking n slow traces returns min(n, available) of the given traces, in descending duration, and no trace left out is slower than one returned.", "quantifier": "every trace list and n", "why_tests_cant": "All lists.", "anchors": ["otel/jaeger/trace_picker.go PickSlowTraces"]}
{"id": "C34", "title": "Same-service picker is an exact filter", "statement": "Exactly the traces whose same-service count exceeds the threshold are returned, in the order given.", "quantifier": "every trace list and threshold", "why_tests_cant": "All lists.", "anchors": ["otel/jaeger/trace_picker.go PickSameServiceAccessTraces"]}
{"id": "C35", "title": "Time windows tile the requested range", "statement": "Splitting a range into windows of positive length yields consecutive, non-overlapping windows that cover every instant of [start,end), the first starts at start, the last ends less than one window after end; an empty range yields no window and the split terminates.", "quantifier": "every start, end and positive interval", "why_tests_cant": "All times and intervals.", "anchors": ["lib/time.go GenerateTimeRanges", "otel/jaeger/trace_fetcher.go:21-72", "cmd/db/dig/performance_insights.go:46-96"]}
{"id": "C36", "title": "Trace fetching is all or nothing", "statement": "Fetching asks the server for each window in order; if any window fails the whole fetch fails with that error, otherwise the result is the concatenation of all windows' traces, each compacted.", "quantifier": "every range and every failure schedule of the server", "why_tests_cant": "All schedules.", "anchors": ["otel/jaeger/trace_fetcher.go:21-72"]}
{"id": "C37", "title": "Database load aggregation conserves load", "statement": "In the hourly load series, each hour/database/statement entry carries the sum and the maximum of exactly the data points that fall into that hour, every data point within the covered hours is counted exactly once, and there is one hour entry for every hour from the start's hour through the end.", "quantifier": "every list of load samples, start and end (UTC-aligned zones)", "why_tests_cant": "All sample lists; false when the start time is in a zone whose offset is not a whole number of hours.", "anchors": ["infra/aws/pi_sql_load_avg.go:24-81 ConvertPiSQLLoadAvgsToVms", "lib/time.go NormalizeTimeByHour"]}
{"id": "C38", "title": "Load metric filtering", "statement": "From the service's metrics only db.load.avg series with dimensions are used; a data point is used exactly when it has a timestamp and a non-zero value.", "quantifier": "every response", "why_tests_cant": "All responses.", "anchors": ["infra/aws/performance_insights.go:51-112"]}
{"id": "C39", "title": "MySQL index rows are grouped into indexes", "statement": "Catalogue rows ordered by table, index and position are grouped into one index per (table, index name) with columns in row order, nothing lost or duplicated.", "quantifier": "every ordered row list", "why_tests_cant": "All row lists.", "anchors": ["infra/mysql/index_info.go:28-49 toIndexInfo"]}
{"id": "C40", "title": "Hasura catalogue queries cannot be injected", "statement": "The raw SQL sent to Hasura for schema and index lookup contains the schema and table names only as quoted literals; any name with a non-word character is refused before a request is sent.", "quantifier": "every schema name and table list", "why_tests_cant": "All strings.", "anchors": ["infra/hasura/column_info.go:39-76", "infra/hasura/index_info.go:36-73"]}
{"id": "C41", "title": "PostgreSQL connection settings survive encoding", "statement": "The key/value connection string built from the settings is read back by the driver's key='value' grammar as the same settings.", "quantifier": "every user, password, host, port, database, search path", "why_tests_cant": "All strings; false for values with quotes or backslashes.", "anchors": ["infra/postgres/config.go:47-70 GetKVConnectionString"]}
{"id": "C42", "title": "Suggest command never changes the database without --with-examine", "statement": "Without --with-examine no index is created or dropped; with it, only the targets given by -i (if any) or the safe suggestions are examined, and for MySQL and PostgreSQL an invalid -i value is rejected before any database access.", "quantifier": "every option set and every outcome of each step", "why_tests_cant": "All option/outcome combinations.", "anchors": ["cmd/db/suggest/mysql.go:61-137", "cmd/db/suggest/postgres.go:61-142", "cmd/db/suggest/hasura/postgres.go:83-188"]}
{"id": "C43", "title": "Suggested examine command is shell-safe", "statement": "The command line shown to the user, when pasted into a POSIX shell, passes exactly the original option values as arguments.", "quantifier": "every option value (any characters)", "why_tests_cant": "All strings and quoting interactions.", "anchors": ["client/src/models/ExaminationCommandOption.ts ToCommandString"]}
{"id": "C44", "title": "Trace diagram represents every span", "statement": "Collapsing repeated sibling accesses never loses spans: the number of spans represented (shown plus counted as repeats) equals the number of spans in the trace.", "quantifier": "every trace tree", "why_tests_cant": "All trees.", "anchors": ["client/src/models/OtelTraceSpan.ts createTraceNodes, countRepeatedChildService"]}
{"id": "C45", "title": "Trace diagram activations are balanced", "statement": "The generated sequence diagram opens and closes activations in a well-nested way.", "quantifier": "every trace tree", "why_tests_cant": "All trees.", "anchors": ["client/src/models/trace_diagram/TraceTree.ts", "client/src/models/trace_diagram/TraceRepeatNode.ts"]}
{"id": "C46", "title": "Explain chart rows are numbered in pre-order and bars nest in time", "statement": "Every plan node gets its own row, numbered by pre-order without gaps; each node's bar ends no earlier than the bars of its descendants and starts no later than it ends.", "quantifier": "every plan forest", "why_tests_cant": "All trees.", "anchors": ["client/src/components/ExplainTree/ExplainTree.ts"]}
{"id": "C47", "title": "Load chart series are aligned with the hours", "statement": "Every statement's chart series has one point per hour of the report, the i-th point belonging to the i-th hour.", "quantifier": "every hourly load report with distinct statements per hour and database", "why_tests_cant": "All reports; the leading padding points carry a wrong hour.", "anchors": ["client/src/pages/dig/performance_insights/util/chart/LoadPropChartSereies.ts"]}
{"id": "C48", "title": "Load ranking totals", "statement": "The ranking shows, for the chosen databases, at most the requested number of statements, in descending total load, each total being the sum of that statement's loads over all hours, and no omitted statement has a larger total.", "quantifier": "every report, database selection and limit", "why_tests_cant": "All reports.", "anchors": ["client/src/pages/dig/performance_insights/DbLoadRankingChart.ts"]}
{"id": "C49", "title": "PostgreSQL FROM list keeps every table", "statement": "All tables of a FROM clause are visible to column resolution, including comma-separated ones.", "quantifier": "every FROM clause", "why_tests_cant": "All clause shapes; false for comma-separated FROM items.", "anchors": ["database/postgres/pservice/parser/collect_stmt_scopes.go:85-110"]}
{"id": "C50", "title": "Query analysis terminates on every query", "statement": "Collecting scopes from a parsed query terminates and does not crash for every syntax tree.", "quantifier": "every syntax tree", "why_tests_cant": "All trees; false for parenthesised table expressions and for root UNION/VALUES.", "anchors": ["database/postgres/pservice/parser/collect_stmt_scopes.go:169-175,475-551"]}
{"id": "C51", "title": "MySQL plan numbers and table are read exactly", "statement": "Whatever surrounds them on the line, the cost, row, time and loop numbers of a MySQL plan line printed as plain decimals, and its table, are read back exactly; a line in MySQL's forms is never refused; absent parts stay null, and so does exactly a part with a number in any other notation, without an error.", "quantifier": "every printed line, every number", "why_tests_cant": "All numbers and all surrounding texts; lazy quantifiers and optional parts make regular expressions easy to get wrong for some of them.", "anchors": ["database/mysql/mmodel/explain_analyze_result_line.go:31-150"]}
{"id": "C52", "title": "PostgreSQL plan numbers and table are read exactly", "statement": "Whatever surrounds them in the node, the cost, width, row, time and loop numbers of a PostgreSQL plan node, and its table, are read back exactly; a node in PostgreSQL's form is never refused; absent parts stay null, and so does exactly an actual part in any other notation, without an error; the shown time is the printed total time.", "quantifier": "every printed node, every number", "why_tests_cant": "All numbers and all surrounding texts and rows.", "anchors": ["database/postgres/pmodel/explain_analyze_result_node.go:30-141"]}
{"id": "C53", "title": "Per-table results are computed without crashing", "statement": "ToSingleTableResults returns for every plan tree that the explain parsers produce; it does not dereference a nil tree.", "quantifier": "every plan tree", "why_tests_cant": "All tree shapes; false for a table node with two children that both use their trees.", "anchors": ["database/dservice/build_single_table_explain_results.go:24-31,69-78"]}
{"id": "C54", "title": "Span conversion keeps ids, times, attributes and service", "statement": "A fetched span converts with its ids, name and times unchanged, its attributes converted value by value at every depth (of several entries with one key the last counts), and its service taken from the resource's first service.name attribute. Conversion crashes exactly when some attribute contains an unset value at any depth.", "quantifier": "every span with attributes nested to any depth", "why_tests_cant": "Values nest without bound.", "anchors": ["otel/jaeger/v1_converter.go:56-115"]}
{"id": "C55", "title": "The service named as most time consuming has the largest total", "statement": "Whatever order the map is read in, the named service has the largest sum of consumed times of its spans; it occurs in the trace unless every sum is zero, in which case the name is empty. Ties are resolved by map order.", "quantifier": "every trace tree whose sums fit 64 bits, every map order", "why_tests_cant": "All trees and map orders.", "anchors": ["otel/omodel/compact_info_collect_visitor.go:8-33", "otel/omodel/trace_tree.go:49-64"]}
{"id": "C56", "title": "The trace view keeps structure, identity and times", "statement": "The view of a trace has the same spans in the same order at the same depth, ids written so that different ids stay different, and times in whole milliseconds rounded down, keeping start before end.", "quantifier": "every trace tree", "why_tests_cant": "All trees and byte strings.", "anchors": ["otel/omodel/span.go:92-103"]}
{"id": "C57", "title": "The load report asks for the whole week or fails", "statement": "For every database the command asks for both kinds of metrics in 14 consecutive half-day windows that tile the seven days of the report; it keeps all answers in order, and fails if any question fails.", "quantifier": "every start time and every failure schedule of the service", "why_tests_cant": "All schedules and start times.", "anchors": ["cmd/db/dig/performance_insights.go:62-83"]}
{"id": "C58", "title": "The suggested examine command does not overwrite the report", "statement": "The output option of the examine command suggested by a plain report names a different file than the report, with the same extension; after an examination it names the report itself.", "quantifier": "every output file name", "why_tests_cant": "All file names.", "anchors": ["html/viewmodel/vm_examination_command_option.go:14-25"]}
{"id": "C59", "title": "Suggestions are the uncovered candidates", "statement": "The suggester answers with exactly the candidate indexes of the query not covered by an existing index, failing only if parsing or reading the catalogue fails. For MySQL and PostgreSQL a query without any candidate is an error instead of an empty answer.", "quantifier": "every query, candidate list and catalogue", "why_tests_cant": "All candidate lists; false for the empty one because sqlx.In refuses empty slices.", "anchors": ["database/mysql/mservice/index_suggester.go", "database/postgres/pservice/index_suggester.go", "infra/mysql/db.go:78-82", "infra/postgres/db.go:71-75"]}
{"id": "C60", "title": "The explained statement is the first thing sent, unchecked", "statement": "With valid options the first database access of the MySQL and PostgreSQL suggest commands is the explain prefix followed by the user's statement verbatim, before any syntax check; a data-changing statement is therefore executed by EXPLAIN ANALYZE.", "quantifier": "every statement, option set and outcome", "why_tests_cant": "All statements and outcomes.", "anchors": ["cmd/db/suggest/mysql.go:61-137", "cmd/db/suggest/postgres.go:61-142", "infra/mysql/db.go", "infra/postgres/db.go"]}
{"id": "C61", "title": "The load report's command passes the statement unchanged", "statement": "The command line shown for a statement of the load report, pasted into a POSIX shell, passes the database and the statement unchanged.", "quantifier": "every database name and statement", "why_tests_cant": "All strings; false for statements with backquotes, double quotes, dollars or backslashes.", "anchors": ["client/src/pages/dig/performance_insights/util/CommandText.ts:1-6"]}
{"id": "C62", "title": "Details of a tokenized statement show its heaviest raw loads", "statement": "Picking the raw loads of a tokenized statement returns its size heaviest raw loads in descending order of maximum load, over all hours and databases, and throws exactly when it has none.", "quantifier": "every report, size and id", "why_tests_cant": "All reports.", "anchors": ["client/src/pages/dig/performance_insights/util/chart/TokenizedLoad.ts:10-44"]}
{"id": "C63", "title": "A PostgreSQL scope describes its query", "statement": "When CollectStmtScopes succeeds, it returns one scope called <root>; it has a field for each expression of the query that mentions a column, a star or a subquery, with exactly these mentions and with the use (condition in WHERE and ON, reference elsewhere), a field scope for each subquery in an expression, a sub scope for each derived table, and so on for every nested query; a query without unsupported parts is accepted, and one with an unsupported expression, another schema or catalog, a natural join or a WINDOW clause at any depth is refused; so is a query with a WITH clause whose first member is a SELECT that selects something.", "quantifier": "every plain query (no WITH, set operations, VALUES, parenthesised FROM items, subqueries in DISTINCT ON, OFFSET or the ORDER BY of functions and windows), any depth and size", "why_tests_cant": "All nestings of expressions, joins and subqueries; the collector works by mutation through a stack, counters and maps over a walk that visits clauses in another order than they are collected.", "anchors": ["database/postgres/pservice/parser/collect_stmt_scopes.go:45-657", "database/postgres/pservice/ast/ast_walker.go:53-266"]}
{"id": "C64", "title": "References between PostgreSQL scopes can be followed", "statement": "In the scopes that are returned every subquery column refers to a field scope of its scope, every field scope is referred to, every sub scope belongs to a table of its scope, and all names are different, at every depth.", "quantifier": "every plain query without a comma in FROM and without subqueries in OFFSET or the ORDER BY of functions and windows", "why_tests_cant": "Names come from counters shared by the whole walk; all nestings must be considered. False with a comma in FROM and with subqueries in OFFSET.", "anchors": ["database/postgres/pservice/parser/collect_stmt_scopes.go:177-210,252-265,485-501,584-627"]}
{"id": "C65", "title": "The schemas read are those of the tables the query reads", "statement": "For a SELECT, CollectTableNames always returns; on success it lists, normalised and without duplicates, exactly the tables named in a FROM clause anywhere in the statement that no enclosing WITH binds, every one of them in the public schema; it refuses exactly the statements with unsupported nodes or other schemas.", "quantifier": "every syntax tree, normalisation and set iteration order", "why_tests_cant": "All nestings of subqueries, joins and WITH clauses; false for subqueries in OFFSET and in the ORDER BY of functions and windows, which are skipped.", "anchors": ["database/postgres/pservice/parser/collect_table_names.go:22-114", "database/postgres/pservice/ast/ast_walker.go:53-266"]}
{"id": "C66", "title": "Index suggestions only use names written in the query", "statement": "Every table a suggestion is for is listed in a FROM clause of the statement, and every column of a suggestion is used by name in that statement; and resolving the names ends with suggestions or an error message, never a crash, as long as every FROM subquery has its entry in FROM.", "quantifier": "every tree of query scopes of any depth, every schema, every map iteration order and sort", "why_tests_cant": "Scope trees are unbounded and names are passed up through any number of derived tables; without the FROM entry the code dereferences nil, which is also proved.", "anchors": ["database/dservice/dparser/build_table_fields.go:24-344", "database/dservice/dparser/index_target_builder.go:24-64"]}
{"id": "C67", "title": "No column used in a condition is forgotten", "statement": "When a statement resolves, every column of a database table that it uses, at any depth of subqueries, through FROM subqueries that select it, or from an expression subquery into the query around it, is listed under that table, as a condition if it is used in a condition; and for any selection of columns of one table used in conditions, in any order, an index on exactly these is suggested unless they all belong to the primary key.", "quantifier": "every scope tree with reference and condition uses, every schema, every map iteration order", "why_tests_cant": "All nestings and all orders of columns; completeness cannot be sampled.", "anchors": ["database/dservice/dparser/build_table_fields.go:24-344", "database/dservice/dparser/index_target_builder.go:24-64"]}
{"id": "C68", "title": "Index suggestions for a PostgreSQL query: sound and complete end to end", "statement": "When a plain query gets a list of suggested indexes, the table columns were asked for exactly the tables the query reads; each suggestion is for one of these tables, has at least one column and no column twice, and each of its columns is a column of that table which the query mentions. Conversely, for any non-empty selection, in any order, of different columns of one table that the query uses in conditions (directly, through a FROM subquery that selects them, or from a subquery into the query around it, by an unqualified name, through a FROM subquery there, or from a LATERAL subquery), an index on exactly these columns is in the list, unless they all belong to the primary key. A query with a WITH clause gets no list.", "quantifier": "every plain query (no UNION/VALUES/parenthesised root, see DESIGN) without subqueries in clauses the walker skips; for completeness also: one item per FROM clause and names not beginning with '<'; every answer of the database, every map iteration order and sort", "why_tests_cant": "Queries nest without bound; the claim joins four passes (name collection, schema read, scope collection, field resolution) whose tests each use hand-made inputs.", "anchors": ["database/postgres/pservice/parser/index.go:10-32", "database/hasura/hservice/parser/index.go:10-32", "database/postgres/pservice/parser/collect_stmt_scopes.go", "database/dservice/dparser/build_table_fields.go:24-344"]}
{"id": "C69", "title": "Listing index suggestions ends with a list or an error", "statement": "For every query, listing the possible indexes returns suggestions or a non-empty list of errors; it neither panics nor recurses for ever.", "quantifier": "every query, every database answer, every map iteration order", "why_tests_cant": "Absence of panics over all query shapes; the claim is false for UNION, for a FROM subquery before a comma and for WITH over VALUES, which the unit tests do not include.", "anchors": ["database/postgres/pservice/parser/index.go:10-32", "database/postgres/pservice/parser/collect_stmt_scopes.go"]}
{"id": "C70", "title": "Tables of a MySQL statement", "statement": "Collecting the table names of a MySQL statement always returns. It fails, with at least one message, exactly for statements other than a single SELECT and for SELECTs with, anywhere in them, a table of a named database, a UNION or a join in the place of a table in FROM. On success the list has each name once, in lower case, and holds every table that occurs in a FROM clause at any depth under a name that no WITH around it binds; and no other name.", "quantifier": "every syntax tree of any depth, every iteration order of sets", "why_tests_cant": "Statements nest without bound and WITH scopes interleave with the walk; tests sample a few shapes.", "anchors": ["database/mysql/mservice/parser/collect_table_names.go:10-117"]}
{"id": "C71", "title": "The scope collected from a MySQL query describes its outermost SELECT", "statement": "When a MySQL query is accepted, exactly one scope is collected: it has a field for each selected expression, ON, WHERE, GROUP BY, HAVING, ORDER BY and LIMIT expression of the outermost SELECT that mentions something, with exactly the columns mentioned there, as conditions in ON and WHERE, and the tables of its FROM. A refused expression, FROM item or WINDOW clause in any SELECT at any depth is reported; a query without those, without WITH and without VALUES is accepted; and a WITH clause anywhere is reported when its first query is a SELECT that has an expression or a FROM clause.", "quantifier": "every syntax tree of any depth", "why_tests_cant": "Pending errors travel between the SELECTs of the walk; whether one is lost depends on the whole tree.", "anchors": ["database/mysql/mservice/parser/collect_stmt_scopes.go:12-367"]}
{"id": "C72", "title": "Index suggestions for a MySQL query: end to end", "statement": "Listing the possible indexes of any MySQL statement returns a list or errors, and errors that are the query's fault have at least one message. Each suggestion is on a table of the outermost FROM, has different columns of that table, each mentioned by the outermost SELECT itself; each column mentioned there exists in the catalogue under the lower-case form of what is written. Columns of one table used in conditions, in any order, are suggested as an index unless they all belong to the primary key.", "quantifier": "every statement, every database answer, every map iteration order and sort", "why_tests_cant": "The claim joins four passes whose tests each use hand-made inputs; completeness over all nestings and column orders cannot be sampled. It is false for conditions of nested queries, which no unit test includes.", "anchors": ["database/mysql/mservice/parser/index.go:10-32", "database/mysql/mservice/parser/collect_stmt_scopes.go", "database/dservice/dparser/build_table_fields.go:24-344"]}
{"id": "C73", "title": "The index suggesters, from query text to suggestions", "statement": "For MySQL: the suggester looks at the first statement of the text only; it crashes exactly on a text without statements; when it answers, every suggestion is on a table in FROM of the SELECT, on different existing columns that the SELECT mentions, and the catalogue (asked about that table) shows no index on exactly these columns; and columns of one table used in its conditions are suggested in every order unless they are all in the primary key or such an index is shown. For PostgreSQL and Hasura the same holds for plain queries, at any depth of nesting; a text of several statements is refused before the catalogue is read.", "quantifier": "every text, parser result, catalogue answer, map iteration order and sort; for PostgreSQL queries of the plain fragment", "why_tests_cant": "It composes parser result handling, analysis, index building and the removal of existing indexes; tests check each on fixed inputs and never a text with no or with several statements.", "anchors": ["database/mysql/mservice/index_suggester.go:23-40", "database/mysql/mservice/parse.go:8-15", "database/postgres/pservice/index_suggester.go:22-39", "database/postgres/pservice/parse.go:8-18", "database/hasura/hservice/index_suggester.go:21-38", "infra/mysql/db.go:78-92", "infra/postgres/db.go:71-85"]}
{"id": "C74", "title": "An examination touches only what the query is about", "statement": "With --with-examine and without -i, every index the command asks the database to create is, in the text sent, on a table that the query reads and on columns of this table that the query mentions; no such index is shown by the catalogue; and if it is created, the command drops it again, naming the same index, after one execution of the query.", "quantifier": "every query, every behaviour of the database during the examination, every catalogue answer; MySQL for all queries, PostgreSQL and Hasura for plain ones", "why_tests_cant": "The DDL sent depends on the whole pipeline from the text of the query to the answers of the database; a test sees one pipeline run with a cooperative database.", "anchors": ["cmd/db/suggest/mysql.go:61-109", "cmd/db/suggest/postgres.go:61-109", "cmd/db/suggest/hasura/postgres.go:88-158", "database/dservice/examiner.go:30-103", "database/mysql/mservice/index_examiner.go"]}
{"id": "C75", "title": "An index that exists is not suggested again", "statement": "When the database has an index on exactly the columns cs of a table, in this order, the suggestions for a query do not contain the index on cs of that table.", "quantifier": "every query, every set of existing indexes, every name", "why_tests_cant": "Whether the index is recognised depends on how the database spells column names in its catalogue; tests use names that need no quotes. For PostgreSQL it is false for names that do.", "anchors": ["infra/postgres/index_info.go:9-48", "infra/hasura/index_info.go:11-71", "infra/mysql/index_info.go:3-49", "database/dservice/existing_index_remover.go:26-57"]}
{"id": "C76", "title": "The printed plan and the chart show the same nodes in the same order", "statement": "The page of a suggest report prints, below each other, the text of every node of the plan exactly once, parents before children and siblings in order, so that the text on the page is the text of EXPLAIN (for MySQL without empty lines, for PostgreSQL followed by the summary). The bars of the chart belong to the same nodes in the same order, the label on a bar is the title of its node, and moving the mouse over any bar makes exactly the text of its node bold.", "quantifier": "every plan of any shape and depth, also with equal nodes", "why_tests_cant": "The printed list and the chart are made by two different traversals, one of them a worklist with a visited list; that their numberings agree for every tree cannot be sampled.", "anchors": ["client/src/components/ExplainText.svelte", "client/src/components/ExplainTree/ExplainTree.ts", "client/src/pages/suggest/mysql/ExplainAnalyzeChart.svelte", "database/mysql/mmodel/explain_analyze_tree_node.go", "database/postgres/pmodel/explain_analyze_tree_node.go"]}
{"id": "C77", "title": "The chart reckons with the same time as the ranking of tables", "statement": "The end of the bar of a node follows from the time the tool uses for finding slow tables: with more than one loop (MySQL) the bar lasts as long as EstimatedTotalTime from the end of what it waits for, with one loop it ends at EstimatedTotalTime, and a node that was not executed ends at 0; for PostgreSQL the bar always ends at EstimatedTotalTime. The tooltip shows the times of every node that was executed.", "quantifier": "every plan text that can be read, every number of loops", "why_tests_cant": "The rule is written twice, in Go and in TypeScript, with different treatment of null and 0. The tooltip part is false for first-row times of 0.", "anchors": ["client/src/models/explain_data/MysqlAnalyzeData.ts:13-26", "client/src/models/explain_data/PostgresAnalyzeData.ts:13-16", "client/src/pages/suggest/postgres/ExplainAnalyzeChart.svelte:64-66", "database/mysql/mmodel/explain_analyze_result_line.go:132-141", "database/postgres/pmodel/explain_analyze_result_node.go:137-141"]}
{"id": "C78", "title": "The label of a plan node is the name of its operation", "statement": "The title of a node is the name of the operation printed in its row: for MySQL the text between the arrow and the first colon, or up to and including join, or before ' on ', or the first word; for PostgreSQL the text between the arrow and the first ' on ' or ' (' of the row with the costs.", "quantifier": "every row of these shapes, any operation name, any rest of the row", "why_tests_cant": "The titles come from regular expressions with greedy and lazy parts over unbounded text; for MySQL a colon inside a value cuts the title.", "anchors": ["database/mysql/mmodel/explain_analyze_result_line.go:154-183", "database/postgres/pmodel/explain_analyze_result_node.go:152-164"]}
{"id": "C79", "title": "The command on the load report belongs to a statement of a database that is checked", "statement": "Whatever the user clicks, the command shown under a chart of the load report is the empty form or names a statement of the report together with the database it was run in; in the timeline this database is one of those checked at that moment and the statement reaches the threshold; the check boxes offer every database of the report exactly once, in order, with the first one checked.", "quantifier": "every report, every sequence of check box, chart and radio button events", "why_tests_cant": "The panels keep a selection across events; only an invariant over all event sequences excludes stale selections. For the ranking and the tokenized panels the claim is false.", "anchors": ["client/src/pages/dig/performance_insights/HeavySqlTimeline.svelte:20-60", "client/src/pages/dig/performance_insights/HeaviestSqlRanking.svelte:18-60", "client/src/pages/dig/performance_insights/HeavyTokenizedSqlTimeline.svelte:20-110", "client/src/pages/dig/performance_insights/HeaviestTokenizedSqlRanking.svelte:20-108", "client/src/pages/dig/performance_insights/util/Databases.ts:3-16", "client/src/lib/GrChart.ts:72-84", "client/src/pages/dig/performance_insights/DbTokenizedLoadRankingChart.ts:92-143"]}
{"id": "C80", "title": "The SQL shown for an examined index creates that index", "statement": "For every row of the table of examined indexes, running the SQL shown creates an index on the same table and columns as the index that was examined; the rows are sorted by time and each shows the time measured while its own index existed; the curl command of the Hasura page, pasted into a shell, posts a JSON request to run exactly the SQL shown.", "quantifier": "every target with word-only names, every page, every set of reserved words, every examination", "why_tests_cant": "The examined statement quotes its names, the shown one does not; whether they agree depends on case folding and reserved words, not on samples.", "anchors": ["client/src/models/IndexTarget.ts:9-26", "client/src/models/PostgresIndexTarget.ts:3-9", "client/src/models/HasuraIndexTarget.ts:3-17", "client/src/components/ExaminationResultTable.svelte:4-52", "database/postgres/pservice/index_examiner.go:35-42", "database/mysql/mservice/index_examiner.go:35-43", "database/hasura/hservice/index_examiner.go:37-44"]}
{"id": "C81", "title": "The Jaeger report shows the slowest traces of the whole range asked for", "statement": "gr app dig jaeger asks about every instant of the 24 hours from the start given (or of the last 24 hours), never beyond now, for the service, count and minimum duration given. It writes a page only after every question was answered; the page shows the hundred slowest of all traces received, slowest first, and all traces in which a service is visited more often than the threshold, each with its trace id, counts and spans. If a question fails, the command fails with that error and writes nothing.", "quantifier": "every clock, options, environment, and every behaviour of the server, all map and sort orders", "why_tests_cant": "It depends on the composition of windows, streaming, conversion, compaction and a bounded heap for unbounded answers.", "anchors": ["cmd/app/dig/jaeger.go:63-164", "otel/jaeger/trace_fetcher.go:21-72", "otel/jaeger/trace_picker.go:18-36", "otel/omodel/trace_tree.go:49-64"]}
{"id": "C82", "title": "The load report shows every measurement of the week or is not written", "statement": "gr db dig performance-insights asks, for every MySQL instance listed, about plain and tokenized statements in half-day windows such that every instant of the seven days from the start (or of the last seven days) is in exactly one of them. It writes a page only after all questions were answered; its hours run from the hour of the start through the end, and show exactly the measurements received, by hour, database and statement. If anything fails, nothing is written and the error is one that happened. In the charts every statement has one series with one point per hour.", "quantifier": "every clock, options, and every behaviour of AWS, every number of databases, metrics and points", "why_tests_cant": "Composition of listing, windows, conversion, aggregation and charts over unbounded answers. For listings of more than one page the claim is false.", "anchors": ["cmd/db/dig/performance_insights.go:46-96", "infra/aws/rds.go:27-46", "infra/aws/performance_insights.go:31-112", "infra/aws/pi_sql_load_avg.go:24-81", "client/src/pages/dig/performance_insights/util/chart/LoadPropChartSereies.ts:8-65"]}
{"id": "C83", "title": "The suggester knows exactly the columns and the primary key of the PostgreSQL tables a query reads", "statement": "For every catalogue PostgreSQL can have, the column query lists exactly the columns of the ordinary tables asked for in the schema (no system columns, no columns of other schemas), and marks exactly those of the primary key. A query is accepted only if every table it reads is such a table, and every column of a suggested index is a column of its table.", "quantifier": "every catalogue (any number of namespaces, classes, attributes and indexes), schema, set of tables, answer order, and every query of the supported kind", "why_tests_cant": "The query joins four relations with an outer join; tests use one database without dropped columns, INCLUDE clauses, partitions or second schemas. With those the claim is false in three places.", "anchors": ["infra/postgres/column_info.go:3-21", "infra/hasura/column_info.go:11-29", "database/dservice/dparser/table_schema.go:14-47", "database/postgres/pservice/index_suggester.go:22-39"]}
{"id": "C84", "title": "A PostgreSQL index is withheld exactly if the database has one that does the same", "statement": "For every catalogue: if conditions of a query use certain columns of an ordinary table, not all in its primary key, then the index on these columns, in each order, is suggested unless the database has a usable B-tree index for all rows with exactly these key columns in this order; and an index the database has is not suggested.", "quantifier": "every catalogue, query of the supported kind, table, list of columns and order of the answers", "why_tests_cant": "Needs the meaning of the index query over all catalogues, composed with the whole suggester. Tests have no partial, hash, invalid or covering indexes; with them the claim is false in both directions.", "anchors": ["infra/postgres/index_info.go:8-27", "infra/hasura/index_info.go:11-29", "database/dservice/existing_index_remover.go:26-85", "database/postgres/pservice/index_getter.go:17-26"]}
{"id": "C85", "title": "A MySQL index is withheld exactly if the database has one that does the same", "statement": "For every content of information_schema: the index rows arrive grouped as the code relies on; if conditions of a query use certain columns of a table it reads, not all marked PRI, the index on them, in each order, is suggested unless the database has a visible B-tree on exactly these whole columns in this order; an index the database has is not suggested; every suggested column exists.", "quantifier": "every content of COLUMNS and STATISTICS, every collation order, query of the supported kind, table, list of columns", "why_tests_cant": "Needs the meaning of the catalogue queries and of ORDER BY over all contents, composed with the whole suggester. Tests have no prefix, invisible, full-text or functional indexes; with them the claim is false, and a functional index makes the command fail.", "anchors": ["infra/mysql/column_info.go:3-14", "infra/mysql/index_info.go:3-15", "infra/mysql/index_info.go:28-49", "infra/mysql/db.go:61-92", "database/dservice/existing_index_remover.go:26-85"]}
{"id": "C86", "title": "The data in a report file is what the command put there, and cannot break the page", "statement": "For every value the command embeds, whatever texts it contains (quotes, `</script>`, `<!--`, line separators, control characters), the first script of the written page is exactly the assignment of that value, and a browser that runs it gets the value back. The file is written only if the script and style of the page exist, and then completely or with an error.", "quantifier": "every JSON value (any depth, any texts), every style and script text, every behaviour of the file system", "why_tests_cant": "The claim is about all texts and the interplay of JSON escaping, the HTML tokenizer and the JavaScript reader; tests embed a few harmless queries and never open the page.", "anchors": ["html/html_builder.go:16-65", "html/build_option.go:158-163", "client/src/stores/gr_param.ts:1-12"]}
{"id": "C87", "title": "Opening the report of a suggest command shows what the run found", "statement": "Whenever a suggest command writes a report, opening the file shows the page of the command with a card for each part of the run: the query, the plan with all its nodes and values, the suggested indexes with the command that examines them, and the examination with its times.", "quantifier": "every query, plan of any size and shape, list of suggestions, command options, examination result, style and script", "why_tests_cant": "Needs the composition of the view models, nil slices, JSON, the HTML page, the constructors of the client and the conditions of the components for all runs. Tests check the Go and the client parts apart; for an examination without indexes the page stays blank.", "anchors": ["cmd/db/suggest/mysql.go:113-137", "cmd/db/suggest/postgres.go:112-142", "cmd/db/suggest/hasura/postgres.go:159-190", "database/dmodel/examination_result.go:17-27", "client/src/models/BaseSuggestData.ts:17-28", "client/src/models/PostgresSuggestData.ts:31-45", "client/src/App.svelte:11-40", "client/src/pages/suggest/mysql/SuggestMysqlPage.svelte:14-52", "client/src/components/ExaminationResultTable.svelte:1-7"]}
{"id": "C88", "title": "Opening the report of dig jaeger lists the traces that were found, slowest first, with working links", "statement": "Whenever `dig jaeger` writes a report, opening the file shows two tables, of the hundred slowest traces and of those visiting one service too often. Every trace has exactly one row with its id, duration, count, most consuming service and diagram; slower traces come first; the link of a row is the page of that trace in Jaeger at the address given.", "quantifier": "every answer of Jaeger (any number of traces, spans of any depth), every address, all flags, every style and script", "why_tests_cant": "Needs the composition of the fetching, the heap, the view model, JSON, the page, URL resolution in the browser and a sort, for all runs. Tests render the table with a few fixed traces and one address.", "anchors": ["cmd/app/dig/jaeger.go:83-87", "cmd/app/dig/jaeger.go:147-164", "otel/omodel/span.go:92-103", "html/build_option.go:138-163", "client/src/Mermaid.svelte:34-36", "client/src/models/OtelCompactedTrace.ts:13-23", "client/src/pages/dig/jaeger/DigJaegerPage.svelte:10-38", "client/src/pages/dig/jaeger/TracesTable.svelte:10-66"]}
{"id": "C89", "title": "MySQL connection settings reach the driver unchanged", "statement": "The user, password, protocol, address, database and parameters given in the environment are the ones the MySQL driver connects with, whatever characters they contain; a missing required variable is an error that names it.", "quantifier": "all texts of all settings", "why_tests_cant": "The settings are glued to one text with separators that the values may contain; only a statement about all texts tells which ones survive. Tests connect with one plain configuration.", "anchors": ["infra/mysql/config.go:14-57", "lib/env.go:8-14", "cmd/db/suggest/mysql.go:47-58"]}
{"id": "C90", "title": "What is asked of Hasura and what its answers are taken for", "statement": "For the query and the variables given, the plan shown and every timed run are asked of the address in HASURA_URL with the secret, with the same query and the same variables; an examination succeeds exactly when every request was answered with success, and the times are those of queries that ran. Lookups in the catalogue are marked as reading only, the statements of an examination are not.", "quantifier": "all base addresses, queries, variables (any JSON), index targets and all behaviours of the server", "why_tests_cant": "The variables pass through a decoder and an encoder and the answers come from a server that may fail at any of the requests in any way; tests have no server and no large numbers.", "anchors": ["infra/hasura/client.go:14-80,119-153", "infra/hasura/query.go", "infra/hasura/run_sql_args.go", "infra/hasura/run_sql_response.go", "database/hasura/hservice/index_examiner.go:27-49", "cmd/db/suggest/hasura/postgres.go:88-97,137-160"]}
{"id": "C91", "title": "The user is told where the report is", "statement": "After a successful run that was asked for a report, one line is logged, and the path in it names the file that was written; no such line is logged otherwise.", "quantifier": "all working directories, all output paths, all runs", "why_tests_cant": "The path is put together from the working directory and the option by rules about dots and slashes; tests write to a temporary directory and do not look at the log.", "anchors": ["cmd/util/log.go:19-24", "cmd/db/suggest/mysql.go:86-93", "cmd/db/suggest/postgres.go:86-93", "cmd/db/suggest/hasura/postgres.go:123-130"]}
{"id": "C92", "title": "Tooltips show the query and the node as they are", "statement": "The tooltip of a bar or of a node contains no markup but that of its template, and shows the query (or the first 50 characters of the line of the plan), the database, the table and the numbers, character by character.", "quantifier": "all texts of queries, plan lines, tables, databases and numbers", "why_tests_cant": "Component tests render fixed texts without angle brackets, and the tooltip is only turned into HTML inside the chart library in a browser.", "anchors": ["client/src/pages/dig/performance_insights/util/LoadTooltip.ts:8-49", "client/src/pages/suggest/mysql/ExplainAnalyzeChart.svelte:33-80", "client/src/pages/suggest/postgres/ExplainAnalyzeChart.svelte:33-72", "client/src/pages/suggest/hasura/ExplainChart.svelte:33-63", "client/src/lib/GrChart.ts:51-70"]}
{"id": "C93", "title": "The file of loads opens to the loads measured", "statement": "Opening the file that `gr db dig performance-insights` wrote shows, on the plain and on the tokenized tab, whatever databases are checked, one row per statement and one place per hour of the week asked for; a bar shows the largest load measured for its statement in its hour, and every load measured in the week that reaches the threshold has the bar of its statement and hour. The ranking beside it lists statements of the databases checked, each once, with the loads of its measured hours added up, the largest first, and leaves out none with a larger load than one listed.", "quantifier": "all answers of the service, all databases and statements, all starts in a zone off by whole hours, all selections of databases and thresholds", "why_tests_cant": "The view models, the JSON encoder, the template and the chart code are tested apart, in two languages, with a few hand-made hours.", "anchors": ["html/viewmodel/vm_time_db_load.go", "html/viewmodel/vm_db_load.go", "html/viewmodel/vm_db_load_of_sql.go", "html/build_option.go:51-54,128-135,158-163", "client/src/models/DigData.ts:13-19", "client/src/models/PerformanceInsightsData.ts", "client/src/models/TimeDbLoad.ts", "client/src/models/DbLoad.ts", "client/src/models/DbLoadOfSql.ts", "client/src/App.svelte", "client/src/pages/dig/performance_insights/DigPerformanceInsightsPage.svelte:21-54"]}
{"id": "C94", "title": "The command line means what it says", "statement": "The words of a command of `gr`, followed by its options in any order and in any of the ways an option can be written, run that command with exactly the values given: all indexes in order, each as one value, and of the other options the last value. If a required option is missing nothing runs and it is named; the exit status says whether the command ran and succeeded. Whatever the arguments are, a command runs only if its words are among them, it gets only options of its own with values found in the arguments, and no suggest command creates, drops or measures anything unless an argument begins with `--with-examine`.", "quantifier": "all argument lists, all values of options", "why_tests_cant": "There are no tests of the commands' flags; the ways to write a command line are unbounded, and what runs on a production database depends on them.", "anchors": ["cmd/root.go", "cmd/db.go", "cmd/app.go", "cmd/db/suggest.go", "cmd/db/suggest/mysql.go:26-37", "cmd/db/suggest/postgres.go:26-37", "cmd/db/suggest/hasura/postgres.go:38-51", "cmd/db/dig/performance_insights.go:23-25", "cmd/app/dig/jaeger.go:32-44"]}
{"id": "C95", "title": "The command of a report runs again", "statement": "The command a suggest report shows, pasted into a shell, runs the same command of the program on the same query (and variables), writes next to the report, and examines exactly the indexes checked on the page.", "quantifier": "all reports written by the suggest commands, all selections of indexes, all queries, variables and file names", "why_tests_cant": "The command is put together in TypeScript from values of Go, split by a shell and parsed by cobra; no test runs the chain.", "anchors": ["client/src/components/IndexSuggestion.svelte", "client/src/models/ExaminationCommandOption.ts", "client/src/pages/dig/performance_insights/util/CommandText.ts", "html/viewmodel/vm_examination_command_option.go", "cmd/db/suggest/mysql.go:26-137", "cmd/db/suggest/postgres.go:26-142", "cmd/db/suggest/hasura/postgres.go:38-188"]}
{"id": "C96", "title": "Mermaid draws the trace", "statement": "Opening a trace of the `dig jaeger` report shows a sequence diagram with one arrow for every call of the trace (repeated calls summarised), nested as in the trace.", "quantifier": "all traces: any tree of spans, any service names", "why_tests_cant": "The text of the diagram is put together from service names and read by the grammar of another project; tests compare the text only, for names like `a`.", "anchors": ["client/src/pages/dig/jaeger/TraceDiagram.svelte", "client/src/mermaid.ts", "client/src/models/trace_diagram/TraceTree.ts", "client/src/models/trace_diagram/TraceNode.ts", "client/src/models/trace_diagram/TraceRepeatNode.ts"]}
{"id": "C97", "title": "Requests go to the server in HASURA_URL", "statement": "Every request of `gr db suggest hasura postgres` goes to the protocol and server that `HASURA_URL` names, to the endpoint below the directories of that address, with its query; an address that names no server leads to no request at all.", "quantifier": "all addresses (texts of any length), all endpoints", "why_tests_cant": "The address is parsed, changed, written as a text and parsed again by two libraries; tests use one address and a mock transport.", "anchors": ["infra/hasura/config.go", "infra/hasura/client.go"]}
{"id": "C98", "title": "The catalogue queries ask for the columns and indexes of the tables", "statement": "The queries sent to PostgreSQL, MySQL and (through Hasura) PostgreSQL for the columns and the indexes of the tables of a query list exactly the columns and indexes of those tables in the one schema, each with the name of its table; in MySQL the columns of an index in their order. For every catalogue, every schema and every list of names, quoted or not.", "quantifier": "all catalogues, all schemas, all lists of names, all orders of rows the server is free to choose", "why_tests_cant": "The texts are strings sent to a server; unit tests cannot run them without one, and mocks answer whatever the test expects.", "anchors": ["infra/postgres/column_info.go", "infra/postgres/index_info.go", "infra/postgres/db.go", "infra/mysql/column_info.go", "infra/mysql/index_info.go", "infra/mysql/db.go", "infra/hasura/client.go"]}
{"id": "C99", "title": "Verbose output tells the suggestions of the report and keeps secrets", "statement": "With -v the log lists exactly the suggestions that the report shows, numbered and in the same order, and two lines for every HTTP request; without -v nothing of this is printed. The logging transport changes neither requests nor answers. The log is independent of the Hasura admin secret and of the bodies sent. Two exceptions are proved: a logged suggestion cannot be passed back with -i, and a password written in the address is logged.", "quantifier": "all options, databases, suggestions, series of requests, secrets, bodies and answers", "why_tests_cant": "That something is never printed, whatever secret and answer, is a statement about pairs of runs; a test sees one run with one secret.", "anchors": ["cmd/util/log.go", "lib/http_transport.go", "cmd/root.go", "database/dmodel/index_target.go", "main.go"]}
