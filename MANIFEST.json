{
 "claims": [
  {
   "property": "C01",
   "status": "proved",
   "theorems": [
    "Verif.Index.C01_parse_sound",
    "Verif.Index.C01_parse_rejects",
    "Verif.Index.parse_ok_iff"
   ],
   "note": ""
  },
  {
   "property": "C02",
   "status": "proved",
   "theorems": [
    "Verif.Index.C02_round_trip",
    "Verif.Index.C02_one_line_iff",
    "Verif.Index.C02_print_injective"
   ],
   "note": ""
  },
  {
   "property": "C03",
   "status": "partial",
   "theorems": [
    "Verif.Index.C03_nothing_ignored_partial",
    "Verif.Index.C03_text_is_ignored",
    "Verif.Index.C03_only_other_lines_ignored"
   ],
   "note": "False for texts with a newline (witness C03_text_is_ignored); proved for one-line texts."
  },
  {
   "property": "C04",
   "status": "proved",
   "theorems": [
    "Verif.Index.C04_list_ok_iff",
    "Verif.Index.C04_list_error_iff"
   ],
   "note": ""
  },
  {
   "property": "C05",
   "status": "proved",
   "theorems": [
    "Verif.Index.C05_equals_iff",
    "Verif.Index.C05_same_columns_iff",
    "Verif.Index.C05_same_columns_equivalence"
   ],
   "note": ""
  },
  {
   "property": "C06",
   "status": "proved",
   "theorems": [
    "Verif.Examine.C06_mysql_create",
    "Verif.Examine.C06_mysql_drop",
    "Verif.Examine.C06_postgres_create",
    "Verif.Examine.C06_postgres_drop",
    "Verif.Examine.isSafe_iff",
    "Verif.Examine.plain_isSafe",
    "Verif.Examine.C06_unsafe_table_injects"
   ],
   "note": "Statement text read by an independent SQL lexer (Verif/Sql/Lex.lean). Hypotheses: the code's own IsSafe check and a word-only name (C10)."
  },
  {
   "property": "C07",
   "status": "proved",
   "theorems": [
    "Verif.Examine.C07_created_is_dropped",
    "Verif.Examine.C07_dropped_was_created",
    "Verif.Examine.C07_database_unchanged"
   ],
   "note": "The database is an oracle answering each call as a function of the whole history. A failing removal leaves the index; the property excludes it by hypothesis."
  },
  {
   "property": "C08",
   "status": "proved",
   "theorems": [
    "Verif.Examine.C08_one_index_while_timing",
    "Verif.Examine.C08_at_most_one_index",
    "Verif.Examine.C08_baseline_first"
   ],
   "note": ""
  },
  {
   "property": "C09",
   "status": "proved",
   "theorems": [
    "Verif.Examine.C09_success_iff",
    "Verif.Examine.C09_result_faithful",
    "Verif.Examine.C09_success_history",
    "Verif.Examine.C09_first_error_reported"
   ],
   "note": ""
  },
  {
   "property": "C10",
   "status": "proved",
   "theorems": [
    "Verif.Examine.C10_name_short_and_safe"
   ],
   "note": ""
  },
  {
   "property": "C11",
   "status": "proved",
   "theorems": [
    "Verif.Remover.C11_keeps_uncovered",
    "Verif.Remover.C11_is_filter",
    "Verif.Remover.C11_error"
   ],
   "note": "Case folding is a parameter table; the index reader is an oracle."
  },
  {
   "property": "C12",
   "status": "proved",
   "theorems": [
    "Verif.Remover.C12_idempotent",
    "Verif.Remover.C12_order_insensitive",
    "Verif.Remover.C12_antitone",
    "Verif.Remover.C12_pointwise"
   ],
   "note": "Reader = fixed set of indexes filtered by table."
  },
  {
   "property": "C13",
   "status": "proved",
   "theorems": [
    "Verif.Builder.C13_candidates_exact",
    "Verif.Builder.C13_no_duplicates",
    "Verif.Builder.C13_aggregate_blocks_references",
    "Verif.Builder.C13_build_exact"
   ],
   "note": "Iteration order of every set is an arbitrary permutation chosen per call."
  },
  {
   "property": "C14",
   "status": "proved",
   "theorems": [
    "Verif.Builder.C14_pk_only_dropped",
    "Verif.Builder.C14_count",
    "Verif.Builder.C14_non_prefix_also_dropped"
   ],
   "note": ""
  },
  {
   "property": "C15",
   "status": "partial",
   "theorems": [
    "Verif.Builder.C15_order_independent",
    "Verif.Builder.C15_same_list",
    "Verif.Fields.C15_deterministic_partial",
    "Verif.Fields.C15_deterministic_failure_partial",
    "Verif.Fields.C15_qualified",
    "Verif.Fields.C15_ambiguous_name_nondeterministic"
   ],
   "note": "False for unqualified names that two FROM items have (witness proved: two runs give different lists). Proved for all unambiguous queries of any nesting, in particular fully qualified ones."
  },
  {
   "property": "C16",
   "status": "proved",
   "theorems": [
    "Verif.Builder.C16_sorted",
    "Verif.Builder.sortT_isSort"
   ],
   "note": "sort.Slice is any function meeting its contract."
  },
  {
   "property": "C17",
   "status": "proved",
   "theorems": [
    "Verif.Fields.C17_fields_real",
    "Verif.Fields.C17_suggest_exact",
    "Verif.Fields.C17_only_real_columns",
    "Verif.Fields.C17_no_unknown_table"
   ],
   "note": "For every scope tree, schema list, set/map iteration order and sort."
  },
  {
   "property": "C18",
   "status": "proved",
   "theorems": [
    "Verif.Fields.C18_undefined_table_is_error",
    "Verif.Fields.C18_undefined_column_is_error",
    "Verif.Fields.C18_flat_error",
    "Verif.Fields.C18_correlation_depth_two_rejected"
   ],
   "note": "Necessary scoping conditions at any depth; exact for flat queries. Also shown: legal correlation across two levels is rejected."
  },
  {
   "property": "C19",
   "status": "partial",
   "theorems": [
    "Verif.Fields.C19_type_exact",
    "Verif.Fields.C19_condition_wins_partial",
    "Verif.Fields.C19_all_listed",
    "Verif.Fields.C19_flat_exact",
    "Verif.Fields.C19_aggregate_hides_condition",
    "Verif.Fields.C17_fields_real"
   ],
   "note": "The claim is false when the first use is an aggregation (witness proved). Exact type by order of uses is proved; condition dominates plain references."
  },
  {
   "property": "C20",
   "status": "proved",
   "theorems": [
    "Verif.Schemas.C20_exact",
    "Verif.Schemas.C20_collect_ok",
    "Verif.Schemas.C20_collect_error"
   ],
   "note": "Grouping of column rows into table schemas: exactly the rows of each requested table, in order; missing table is an error."
  },
  {
   "property": "C21",
   "status": "proved",
   "theorems": [
    "Verif.MysqlPlan.C21_textual_order_and_depth",
    "Verif.MysqlPlan.C21_nodes_are_parsed_lines",
    "Verif.MysqlPlan.C21_node_of_line",
    "Verif.MysqlPlan.C21_print_build"
   ],
   "note": "Nodes in textual order with depth = indentation/4; each node carries the table and numbers of its own line; building inverts printing."
  },
  {
   "property": "C22",
   "status": "proved",
   "theorems": [
    "Verif.MysqlPlan.C22_ok_iff",
    "Verif.MysqlPlan.C22_error",
    "Verif.MysqlPlan.C22_never_panics",
    "Verif.MysqlPlan.C22_printed"
   ],
   "note": "Exactly which plans are rejected; never a panic. C22_printed: for plans whose lines are printed in MySQL's forms only the indentation decides."
  },
  {
   "property": "C23",
   "status": "proved",
   "theorems": [
    "Verif.PgPlan.C23_tree_follows_indentation",
    "Verif.PgPlan.C23_ok",
    "Verif.PgPlan.C23_children_deeper",
    "Verif.PgPlan.C23_never_panics",
    "Verif.PgPlan.C23_printed"
   ],
   "note": "Ancestors of every node are the chain of nearest earlier, less indented nodes. C23_printed: a plan of nodes printed in PostgreSQL's form is always accepted."
  },
  {
   "property": "C24",
   "status": "partial",
   "theorems": [
    "Verif.PgPlan.C24_no_line_lost_partial",
    "Verif.PgPlan.C24_tree_keeps_all_lines_partial",
    "Verif.PgPlan.C24_node_shape",
    "Verif.PgPlan.C24_without_summary",
    "Verif.PgPlan.C24_fails_without_summary",
    "Verif.PgPlan.C24_groups"
   ],
   "note": "Holds for plans with a summary line, which the issued EXPLAIN (ANALYZE, BUFFERS) always prints. Without one the code loses the last node (C24_without_summary, C24_fails_without_summary), so the unrestricted statement is false."
  },
  {
   "property": "C25",
   "status": "partial",
   "theorems": [
    "Verif.SingleTable.C25_sound_partial",
    "Verif.SingleTable.C25_covers",
    "Verif.SingleTable.C25_once_partial",
    "Verif.SingleTable.C25_listed_twice",
    "Verif.SingleTable.C25_not_topmost",
    "Verif.SingleTable.C25_pg_times_partial"
   ],
   "note": "Entries are table nodes; every table node is represented (all trees). 'Topmost' and 'no entry twice' are false for the code (witnesses C25_not_topmost, C25_listed_twice) and proved for plans whose table nodes form chains (C25_once_partial). C25_pg_times_partial states the times from the text of a PostgreSQL plan."
  },
  {
   "property": "C26",
   "status": "proved",
   "theorems": [
    "Verif.MysqlPlan.C26_from_text",
    "Verif.MysqlPlan.C26_nonneg",
    "Verif.MysqlPlan.C26_monotone_in_loops",
    "Verif.MysqlPlan.C26_monotone_in_average",
    "Verif.MysqlPlan.C26_not_monotone_below_tenth_milli"
   ],
   "note": "float64 is abstract with monotone-rounding laws as hypotheses (satisfied by the rationals, ratOps_laws). In the average the estimate is monotone only from 0.0001 upwards; below, it is not (proved)."
  },
  {
   "property": "C27",
   "status": "proved",
   "theorems": [
    "Verif.Otel.C27_exact",
    "Verif.Otel.C27_once",
    "Verif.Otel.C27_all",
    "Verif.Otel.C27_cycle_lost",
    "Verif.Otel.C27_duplicate_id_replaced"
   ],
   "note": "Every map iteration order and every sort. Spans on or below a parent cycle are dropped and of several spans with one id only the last survives; both are exhibited as witnesses."
  },
  {
   "property": "C28",
   "status": "proved",
   "theorems": [
    "Verif.Otel.C28_children"
   ],
   "note": "Children of every node are sorted by start and a permutation of the surviving spans naming it."
  },
  {
   "property": "C29",
   "status": "proved",
   "theorems": [
    "Verif.Otel.C29_compact",
    "Verif.Otel.C29_root_stays",
    "Verif.Otel.C29_converted",
    "Verif.Otel.C29_panics_on_equal_ids"
   ],
   "note": "For distinct ids; C29_converted shows conversion always meets that. With equal ids the compaction can panic (witness)."
  },
  {
   "property": "C30",
   "status": "partial",
   "theorems": [
    "Verif.Otel.C30_consumed_partial",
    "Verif.Otel.C30_at_most_duration_partial",
    "Verif.Otel.C30_wraps",
    "Verif.Otel.C30_exact",
    "Verif.Otel.C30_iff",
    "Verif.Otel.C30_at_most_duration_iff",
    "Verif.Otel.C30_backward"
   ],
   "note": "False when a child runs after the end of its span. For spans that run forward, C30_exact gives the value in every case, C30_iff says that it is right exactly when no child runs after the end of the span, and C30_at_most_duration_iff says when it wraps around. For times that run backwards it is false too (C30_backward)."
  },
  {
   "property": "C31",
   "status": "proved",
   "theorems": [
    "Verif.Otel.C31_count"
   ],
   "note": ""
  },
  {
   "property": "C32",
   "status": "proved",
   "theorems": [
    "Verif.Heap.C32_largest"
   ],
   "note": "For every strict weak order; the container/heap algorithms are modelled with index errors and are shown not to have any."
  },
  {
   "property": "C33",
   "status": "proved",
   "theorems": [
    "Verif.Otel.C33_slowest"
   ],
   "note": "For roots that end no earlier than they start."
  },
  {
   "property": "C34",
   "status": "proved",
   "theorems": [
    "Verif.Otel.C34_filter"
   ],
   "note": ""
  },
  {
   "property": "C35",
   "status": "proved",
   "theorems": [
    "Verif.Lib.C35_tiles",
    "Verif.Lib.C35_disjoint",
    "Verif.Lib.C35_empty",
    "Verif.Lib.C35_diverges"
   ],
   "note": ""
  },
  {
   "property": "C36",
   "status": "proved",
   "theorems": [
    "Verif.Otel.C36_all",
    "Verif.Otel.C36_none",
    "Verif.Otel.C36_windows",
    "Verif.Otel.C36_covers",
    "Verif.Otel.C36_duration"
   ],
   "note": "A span with an unset attribute value in an answer panics (see C54), which is covered as a failure."
  },
  {
   "property": "C37",
   "status": "partial",
   "theorems": [
    "Verif.Pi.C37_hours",
    "Verif.Pi.C37_conserves",
    "Verif.Pi.C37_half_hour_zone_loses",
    "Verif.Pi.C37_other_zones_lose"
   ],
   "note": "Holds for data points in UTC and a start whose zone has a whole-hour offset; for other zones it is false (witness). Zones are fixed offsets in the model. Exact: C37_other_zones_lose shows that in every zone not a whole number of hours from UTC all hours are empty."
  },
  {
   "property": "C38",
   "status": "proved",
   "theorems": [
    "Verif.Pi.C38_read",
    "Verif.Pi.C38_nil_key"
   ],
   "note": ""
  },
  {
   "property": "C39",
   "status": "proved",
   "theorems": [
    "Verif.Infra.C39_grouped",
    "Verif.Infra.C39_ordered",
    "Verif.Infra.C39_total",
    "Verif.Infra.C39_not_contiguous",
    "Verif.Infra.C39_nameless_panics"
   ],
   "note": "For rows ordered as the catalogue query orders them. Rows out of order split an index and a nameless first row panics, shown as negations."
  },
  {
   "property": "C40",
   "status": "proved",
   "theorems": [
    "Verif.Infra.Hasura.C40_literals",
    "Verif.Infra.Hasura.C40_accepts_iff",
    "Verif.Infra.Hasura.C40_refused",
    "Verif.Infra.Hasura.C40_requests",
    "Verif.Infra.Hasura.C40_columns",
    "Verif.Infra.Hasura.C40_indexes",
    "Verif.Infra.Hasura.C40_short_row_panics"
   ],
   "note": "A reply row that is too short panics (negation)."
  },
  {
   "property": "C41",
   "status": "partial",
   "theorems": [
    "Verif.Infra.Pg.C41_iff_clean",
    "Verif.Infra.Pg.C41_roundtrip",
    "Verif.Infra.Pg.C41_sslmode_always_disabled",
    "Verif.Infra.Pg.C41_injection",
    "Verif.Infra.Pg.C41_backslash",
    "Verif.Infra.Pg.C41_env"
   ],
   "note": "The claim is false for values with a quote or backslash (C41_injection, C41_backslash); C41_iff_clean says the settings survive exactly when no value has one. The driver grammar is a specification of lib/pq parseOpts."
  },
  {
   "property": "C42",
   "status": "proved",
   "theorems": [
    "Verif.Cmd.C42_invalid_option",
    "Verif.Cmd.C42_invalid_option_hasura",
    "Verif.Cmd.C42_read_only",
    "Verif.Cmd.C42_examined",
    "Verif.Cmd.C42_examines",
    "Verif.Cmd.C42_report",
    "Verif.Cmd.C42_indexes_unchanged",
    "Verif.Cmd.C42_report_written",
    "Verif.Cmd.C42_hasura_runs"
   ],
   "note": "Hasura rejects a bad -i only after its reads (C42_invalid_option_hasura)."
  },
  {
   "property": "C43",
   "status": "proved",
   "theorems": [
    "Verif.Client.Shell.C43_option",
    "Verif.Client.Shell.C43_command",
    "Verif.Client.Shell.C43_targets",
    "Verif.Client.Shell.C43_unsafe_target_expands",
    "Verif.Client.Shell.C43_placeholder"
   ],
   "note": "For every option value. The -i arguments are not escaped: names of word characters are safe, others are not (negation)."
  },
  {
   "property": "C44",
   "status": "proved",
   "theorems": [
    "Verif.Client.Diagram.C44_nothing_lost",
    "Verif.Client.Diagram.C44_count",
    "Verif.Client.Diagram.C44_repeat"
   ],
   "note": ""
  },
  {
   "property": "C45",
   "status": "proved",
   "theorems": [
    "Verif.Client.Diagram.C45_balanced",
    "Verif.Client.Diagram.C45_text",
    "Verif.Client.Diagram.C45_single",
    "Verif.Client.Diagram.C45_newline_unbalanced",
    "Verif.Client.Diagram.C45_drawn",
    "Verif.Client.Diagram.C45_line_text"
   ],
   "note": "The text-level theorem is for service names of one line that do not look like activation lines; a name with a line break breaks it (negation)."
  },
  {
   "property": "C46",
   "status": "proved",
   "theorems": [
    "Verif.Client.Chart.C46_rows",
    "Verif.Client.Chart.C46_nested",
    "Verif.Client.Chart.C46_start"
   ],
   "note": "Numbers are any linear order; the three calculateEndTime functions are arbitrary functions of node and start time."
  },
  {
   "property": "C47",
   "status": "partial",
   "theorems": [
    "Verif.Client.Load.C47_series_partial",
    "Verif.Client.Load.C47_leading_dates_wrong",
    "Verif.Client.Load.C47_repeated_statement_shifts"
   ],
   "note": "Values are aligned; the dates of leading zero points are wrong in the code (negation)."
  },
  {
   "property": "C48",
   "status": "proved",
   "theorems": [
    "Verif.Client.Load.C48_ranking"
   ],
   "note": ""
  },
  {
   "property": "C49",
   "status": "partial",
   "theorems": [
    "Verif.PgScope.C49_keeps_tables_partial",
    "Verif.PgScope.C49_comma_loses_table"
   ],
   "note": "Holds for plain queries in which no SELECT has a comma in FROM; with a comma only the tables of the last FROM item are kept (C63_scope_describes says exactly which, C49_comma_loses_table is a concrete case)."
  },
  {
   "property": "C50",
   "status": "partial",
   "theorems": [
    "Verif.PgScope.C50_returns_partial",
    "Verif.PgScope.C50_union_crashes",
    "Verif.PgScope.C50_parentheses_crash",
    "Verif.PgScope.C50_paren_diverges",
    "Verif.PgScope.C50_open_frame_crashes"
   ],
   "note": "Returns on every plain query, with nested calls bounded by the size of the query. False beyond: UNION and a parenthesised whole query crash, a parenthesised FROM item recurses for ever, a window frame without end bound crashes."
  },
  {
   "property": "C51",
   "status": "proved",
   "theorems": [
    "Verif.MysqlPlan.C51_actual_read",
    "Verif.MysqlPlan.C51_actual_absent",
    "Verif.MysqlPlan.C51_cost_read",
    "Verif.MysqlPlan.C51_table_read",
    "Verif.MysqlPlan.C51_readable",
    "Verif.MysqlPlan.C51_actual_iff",
    "Verif.MysqlPlan.C51_exponent_lost",
    "Verif.MysqlPlan.C51_exponent_lost_witness",
    "Verif.MysqlPlan.C51_table"
   ],
   "note": "Regular expressions run by the backtracking engine of the model, which finds a match exactly when there is one (Regex/Lang.lean). For numbers printed as plain decimals; counts in exponent notation (newer MySQL) make the whole part be dropped silently (C51_exponent_lost)."
  },
  {
   "property": "C52",
   "status": "proved",
   "theorems": [
    "Verif.PgPlan.C52_estimation_read",
    "Verif.PgPlan.C52_actual_read",
    "Verif.PgPlan.C52_actual_absent",
    "Verif.PgPlan.C52_table_read",
    "Verif.PgPlan.C52_table_absent",
    "Verif.PgPlan.C52_qualified_table_cut",
    "Verif.PgPlan.C52_readable",
    "Verif.PgPlan.C52_actual_iff",
    "Verif.PgPlan.C52_decimal_rows_lost",
    "Verif.PgPlan.C52_decimal_rows_lost_witness",
    "Verif.PgPlan.C52_table",
    "Verif.PgPlan.C52_quoted_table_cut"
   ],
   "note": "Regular expressions run by the backtracking engine of the model, which finds a match exactly when there is one (Regex/Lang.lean). For counts printed as digits; `rows=7.00` (PostgreSQL 18) makes the whole actual part be dropped silently (C52_decimal_rows_lost)."
  },
  {
   "property": "C53",
   "status": "partial",
   "theorems": [
    "Verif.SingleTable.C53_no_panic_partial",
    "Verif.SingleTable.C53_panics",
    "Verif.SingleTable.C53_panics_on_plan_text"
   ],
   "note": "False for the code: witness tree and witness PostgreSQL plan text. Proved when no table node has two children."
  },
  {
   "property": "C54",
   "status": "proved",
   "theorems": [
    "Verif.Otel.C54_span",
    "Verif.Otel.C54_service",
    "Verif.Otel.C54_no_service",
    "Verif.Otel.C54_converts_iff",
    "Verif.Otel.C54_panics_iff"
   ],
   "note": "A nil AnyValue pointer counts as unset (it panics too)."
  },
  {
   "property": "C55",
   "status": "proved",
   "theorems": [
    "Verif.Otel.C55_most_consuming",
    "Verif.Otel.C55_tie",
    "Verif.Otel.C55_longest_partial",
    "Verif.Otel.C55_late"
   ],
   "note": "The sum is the time the service runs by itself when no call outlasts its caller (C55_longest_partial); otherwise the service named may be the wrong one (C55_late)."
  },
  {
   "property": "C56",
   "status": "proved",
   "theorems": [
    "Verif.Otel.C56_same_tree",
    "Verif.Otel.C56_ids_distinct",
    "Verif.Otel.C56_times",
    "Verif.Otel.C56_id_in_hex",
    "Verif.Otel.C56_same_times"
   ],
   "note": ""
  },
  {
   "property": "C57",
   "status": "proved",
   "theorems": [
    "Verif.Pi.C57_all",
    "Verif.Pi.C57_fails",
    "Verif.Pi.C57_week",
    "Verif.Pi.C57_first_error"
   ],
   "note": ""
  },
  {
   "property": "C58",
   "status": "proved",
   "theorems": [
    "Verif.Cmd.C58_other_file",
    "Verif.Cmd.C58_ext",
    "Verif.Cmd.C58_same_file"
   ],
   "note": ""
  },
  {
   "property": "C59",
   "status": "proved",
   "theorems": [
    "Verif.Cmd.C59_candidates",
    "Verif.Cmd.C59_no_candidates_is_an_error",
    "Verif.Cmd.C59_refused"
   ],
   "note": "The empty candidate list is an error for MySQL and PostgreSQL, proved as such."
  },
  {
   "property": "C60",
   "status": "proved",
   "theorems": [
    "Verif.Cmd.C60_explained_unchecked",
    "Verif.Cmd.C60_delete_is_executed",
    "Verif.Cmd.C60_first_question"
   ],
   "note": ""
  },
  {
   "property": "C61",
   "status": "partial",
   "theorems": [
    "Verif.Client.Shell.C61_load_command_partial",
    "Verif.Client.Shell.C61_iff",
    "Verif.Client.Shell.C61_backquote_is_executed",
    "Verif.Client.Shell.C61_quote_splits",
    "Verif.Report.Again.C95_load_refused"
   ],
   "note": "False for statements with characters special in double quotes; C61_iff says exactly which statements are passed on unchanged. That the program refuses the command in any case is C95_load_refused."
  },
  {
   "property": "C62",
   "status": "proved",
   "theorems": [
    "Verif.Client.Load.C62_pick"
   ],
   "note": ""
  },
  {
   "property": "C63",
   "status": "proved",
   "theorems": [
    "Verif.PgScope.C63_scope_describes",
    "Verif.PgScope.C63_accepts",
    "Verif.PgScope.C63_refuses",
    "Verif.PgScope.C63_with_refused"
   ],
   "note": "The specification (places, Mentions, Asks, fromTables, Describes) is in PgScope/ScopeSpec.lean. Of several FROM items only the last one gives tables (lastItem). Also: all made-up scope names begin with <, and an expression that is only a column name gives exactly one column. C63_refuses is the converse of C63_accepts: unsupported expressions, other schemas or catalogs, natural joins and WINDOW clauses are refused at any depth. C63_with_refused: a query whose first WITH member selects something is refused, whatever follows."
  },
  {
   "property": "C64",
   "status": "proved",
   "theorems": [
    "Verif.PgScope.C64_linked",
    "Verif.PgScope.C64_comma_unlinked",
    "Verif.PgScope.C64_offset_unlinked"
   ],
   "note": "With the restrictions of the quantifier; the two counterexamples show that each of them is needed."
  },
  {
   "property": "C65",
   "status": "partial",
   "theorems": [
    "Verif.PgScope.C65_total",
    "Verif.PgScope.C65_names_sound",
    "Verif.PgScope.C65_names_complete_partial",
    "Verif.PgScope.C65_no_schema",
    "Verif.PgScope.C65_accepts",
    "Verif.PgScope.C65_refuses",
    "Verif.PgScope.C65_names_incomplete"
   ],
   "note": "Completeness holds when no subquery stands in OFFSET, in the ORDER BY of a function or of a window; C65_names_incomplete is the counterexample otherwise."
  },
  {
   "property": "C66",
   "status": "proved",
   "theorems": [
    "Verif.Fields.C66_listed_is_mentioned",
    "Verif.Fields.C66_no_crash",
    "Verif.Fields.C66_unnamed_sub_crashes",
    "Verif.Fields.C66_suggested_is_mentioned",
    "Verif.Fields.C66_suggest_no_crash"
   ],
   "note": "Uses are those of the scope tree, whatever its depth; the crash without a FROM entry is C66_unnamed_sub_crashes."
  },
  {
   "property": "C67",
   "status": "proved",
   "theorems": [
    "Verif.Fields.C67_used_is_listed",
    "Verif.Fields.C67_conditions_suggested",
    "Verif.Fields.C67_outer_is_listed",
    "Verif.Fields.C67_outer_conditions_suggested"
   ],
   "note": "Uses covers own, derived and qualified outer uses; OuterUses adds unqualified outer uses and qualified uses after LATERAL."
  },
  {
   "property": "C68",
   "status": "proved",
   "theorems": [
    "Verif.PgScope.C68_suggestions_sound",
    "Verif.PgScope.C68_conditions_suggested",
    "Verif.PgScope.C68_around_conditions_suggested",
    "Verif.PgScope.C68_with_no_suggestions"
   ],
   "note": "Composes C65 (names), C20 (schemas), C63/C64/C49 (scopes) and C17/C66/C67 (resolution). The spec of a use (Denotes, UsesColumn) is written over the query text in PgScope/Reads.lean. Orders bundles the map iteration orders and sorts. C68_around_conditions_suggested adds the conditions used from a subquery into the query around it (unqualified, through FROM subqueries there, or after LATERAL), PgScope/Around.lean. C68_with_no_suggestions: a WITH query gets no list."
  },
  {
   "property": "C69",
   "status": "partial",
   "theorems": [
    "Verif.PgScope.C69_returns_partial",
    "Verif.PgScope.C69_union_crashes",
    "Verif.PgScope.C69_comma_crashes",
    "Verif.PgScope.C69_with_values_crashes"
   ],
   "note": "Returns on every plain query with one item per FROM clause. False beyond: a UNION whose tables exist crashes, and so does a FROM subquery before a comma (concrete plain query). A third crash: WITH over VALUES is not refused and then panics (C69_with_values_crashes)."
  },
  {
   "property": "C70",
   "status": "partial",
   "theorems": [
    "Verif.MyScope.C70_total",
    "Verif.MyScope.C70_accepts_iff",
    "Verif.MyScope.C70_names_complete",
    "Verif.MyScope.C70_names_sound_partial",
    "Verif.MyScope.C70_union_with_is_table"
   ],
   "note": "Everything but soundness is proved without restriction. Soundness holds when no set operation has a WITH of its own; otherwise it is false (C70_union_with_is_table): such a WITH is not recorded and its names count as tables."
  },
  {
   "property": "C71",
   "status": "proved",
   "theorems": [
    "Verif.MyScope.C71_scope_describes",
    "Verif.MyScope.C71_accepts",
    "Verif.MyScope.C71_refuses",
    "Verif.MyScope.C71_with_refused",
    "Verif.MyScope.C71_with_values_accepted"
   ],
   "note": "C71_with_values_accepted shows that the side condition on WITH is needed: an error set after the last check is lost."
  },
  {
   "property": "C72",
   "status": "partial",
   "theorems": [
    "Verif.MyScope.C72_returns",
    "Verif.MyScope.C72_suggestions_sound",
    "Verif.MyScope.C72_conditions_suggested_partial",
    "Verif.MyScope.C72_mentions_resolve",
    "Verif.MyScope.C72_nested_condition_forgotten",
    "Verif.MyScope.C72_derived_refused",
    "Verif.MyScope.C72_capital_refused",
    "Verif.MyScope.C72_hidden_forgotten"
   ],
   "note": "Completeness holds for the outermost SELECT only; C72_nested_condition_forgotten refutes it for nested queries, C72_hidden_forgotten for COLLATE and USING. Columns of derived tables and columns with capital letters in the catalogue are errors (C72_derived_refused, C72_capital_refused)."
  },
  {
   "property": "C73",
   "status": "partial",
   "theorems": [
    "Verif.Cmd.C73_mysql_sound",
    "Verif.Cmd.C73_mysql_complete_partial",
    "Verif.Cmd.C73_mysql_rest_ignored",
    "Verif.Cmd.C73_mysql_crash_iff",
    "Verif.Cmd.C73_pg_sound",
    "Verif.Cmd.C73_pg_complete",
    "Verif.Cmd.C73_pg_multiple_refused",
    "Verif.Cmd.C73_pg_empty_crashes",
    "Verif.Cmd.C73_pg_returns_partial",
    "Verif.Cmd.C73_mysql_refusal_shown"
   ],
   "note": "MySQL: conditions of nested queries are never suggested (see C72). PostgreSQL: queries outside the plain fragment may crash (see C69)."
  },
  {
   "property": "C74",
   "status": "proved",
   "theorems": [
    "Verif.Cmd.C74_mysql_examined",
    "Verif.Cmd.C74_pg_examined",
    "Verif.Cmd.C74_hasura_examined"
   ],
   "note": "PostgreSQL and Hasura: for plain queries, as the quantifier says."
  },
  {
   "property": "C75",
   "status": "partial",
   "theorems": [
    "Verif.Cmd.C75_existing_not_suggested_partial",
    "Verif.Cmd.C75_mysql_existing_not_suggested",
    "Verif.Cmd.C75_quoted_suggested_again",
    "Verif.Cmd.C75_unquoted_iff",
    "Verif.Cmd.C75_keyword_suggested_again"
   ],
   "note": "Proved for MySQL, and for PostgreSQL and Hasura when the column names need no quotes; which names these are is C75_unquoted_iff; otherwise false, C75_quoted_suggested_again and C75_keyword_suggested_again are the counterexamples. PostgreSQL's quoting is specified from its documentation."
  },
  {
   "property": "C76",
   "status": "partial",
   "theorems": [
    "Verif.Client.PlanView.C76_texts",
    "Verif.Client.PlanView.C76_hover",
    "Verif.Client.PlanView.C76_mysql_page",
    "Verif.Client.PlanView.C76_pg_page_partial"
   ],
   "note": "PostgreSQL: only for plans with a summary line; without one the last node is lost (C24)."
  },
  {
   "property": "C77",
   "status": "partial",
   "theorems": [
    "Verif.Client.PlanView.C77_mysql_end",
    "Verif.Client.PlanView.C77_pg_end",
    "Verif.Client.PlanView.C77_pg_tooltip_partial",
    "Verif.Client.PlanView.C77_pg_tooltip_fails"
   ],
   "note": "The tooltip of a PostgreSQL node whose first row came at 0.000 has the dash of a node that did not run (proved). Loops of 0, which MySQL prints as never executed, are not covered."
  },
  {
   "property": "C78",
   "status": "partial",
   "theorems": [
    "Verif.MysqlPlan.C78_mysql_colon",
    "Verif.MysqlPlan.C78_mysql_join",
    "Verif.MysqlPlan.C78_mysql_on",
    "Verif.MysqlPlan.C78_mysql_word",
    "Verif.MysqlPlan.C78_mysql_bare",
    "Verif.MysqlPlan.C78_mysql_no_word",
    "Verif.MysqlPlan.C78_mysql_colon_in_value_fails",
    "Verif.PgPlan.C78_pg_title",
    "Verif.PgPlan.C78_pg_no_costs"
   ],
   "note": "MySQL: false when a colon is part of a value (proved)."
  },
  {
   "property": "C79",
   "status": "partial",
   "theorems": [
    "Verif.Client.Panels.C79_timeline",
    "Verif.Client.Panels.C79_ranking_partial",
    "Verif.Client.Panels.C79_tokenized_partial",
    "Verif.Client.Panels.C79_tokenized_bars",
    "Verif.Client.Panels.C79_databases",
    "Verif.Client.Panels.C79_ranking_totals",
    "Verif.Client.Panels.C79_ranking_keeps_unchecked",
    "Verif.Client.Panels.C79_tokenized_other_database"
   ],
   "note": "Holds for the timeline. The ranking keeps a statement whose database was unchecked, and the tokenized panels offer plain statements of databases that are not checked; both negations are proved."
  },
  {
   "property": "C80",
   "status": "partial",
   "theorems": [
    "Verif.Client.Ddl.C80_shown_partial",
    "Verif.Client.Ddl.C80_postgres_fails",
    "Verif.Client.Ddl.C80_mysql_fails",
    "Verif.Client.Ddl.C80_curl",
    "Verif.Client.Ddl.C80_curl_body",
    "Verif.Client.Ddl.C80_table"
   ],
   "note": "Exactly for names that are ordinary in the dialect (not reserved, no leading digit, for PostgreSQL lower case); for the others the negation is proved."
  },
  {
   "property": "C81",
   "status": "proved",
   "theorems": [
    "Verif.Cmd.Jaeger.C81_range",
    "Verif.Cmd.Jaeger.C81_report",
    "Verif.Cmd.Jaeger.C81_entry",
    "Verif.Cmd.Jaeger.C81_succeeds",
    "Verif.Cmd.Jaeger.C81_fails",
    "Verif.Cmd.Jaeger.C81_numbers",
    "Verif.Cmd.Jaeger.C81_count_wraps",
    "Verif.Cmd.Jaeger.C81_future",
    "Verif.Cmd.Jaeger.C81_prepares"
   ],
   "note": "The slowest-first part assumes root spans that run forward (as C33). Counts of 2^31 and more are cut to 32 bits, and a start in the future gives an empty page instead of an error; both are shown."
  },
  {
   "property": "C82",
   "status": "partial",
   "theorems": [
    "Verif.Cmd.PerfInsights.C82_report",
    "Verif.Cmd.PerfInsights.C82_succeeds",
    "Verif.Cmd.PerfInsights.C82_fails",
    "Verif.Cmd.PerfInsights.C82_windows",
    "Verif.Cmd.PerfInsights.C82_range",
    "Verif.Cmd.PerfInsights.C82_chart",
    "Verif.Cmd.PerfInsights.C82_first_page_only",
    "Verif.Cmd.PerfInsights.C82_details_throw",
    "Verif.Cmd.PerfInsights.C82_other_zones_empty"
   ],
   "note": "Proved for the first page of instances and of metrics, start zones a whole number of hours from UTC and points in UTC (as C37). Missing: further pages (C82_first_page_only). In zones not a whole number of hours from UTC both halves of the page are empty (C82_other_zones_empty)."
  },
  {
   "property": "C83",
   "status": "partial",
   "theorems": [
    "Verif.Cmd.Catalogue.C83_columns",
    "Verif.Cmd.Catalogue.C83_primary",
    "Verif.Cmd.Catalogue.C83_primary_partial",
    "Verif.Cmd.Catalogue.C83_accepts",
    "Verif.Cmd.Catalogue.C83_only_ordinary",
    "Verif.Cmd.Catalogue.C83_suggest_sound",
    "Verif.Cmd.Catalogue.C83_include_hides",
    "Verif.Cmd.Catalogue.C83_partitioned_refused",
    "Verif.Cmd.Catalogue.C83_dropped_listed"
   ],
   "note": "Exact characterisation proved; the claim itself holds without dropped columns and without INCLUDE in primary keys. Missing: these two (C83_dropped_listed, C83_include_hides). That the query texts mean these relational expressions is C98."
  },
  {
   "property": "C84",
   "status": "partial",
   "theorems": [
    "Verif.Cmd.Catalogue.C84_complete_partial",
    "Verif.Cmd.Catalogue.C84_not_again_partial",
    "Verif.Cmd.Catalogue.C84_conditional_hides",
    "Verif.Cmd.Catalogue.C84_include_confused",
    "Verif.Cmd.Catalogue.C84_composite_key_hides"
   ],
   "note": "Proved for tables whose indexes are all valid, total B-trees on plain columns without INCLUDE and with names printed without quotes. Missing: other indexes, for which it is false. That the query texts mean these relational expressions is C98."
  },
  {
   "property": "C85",
   "status": "partial",
   "theorems": [
    "Verif.Cmd.MyCatalogue.C85_rows_ok",
    "Verif.Cmd.MyCatalogue.C85_suggest_sound",
    "Verif.Cmd.MyCatalogue.C85_complete_partial",
    "Verif.Cmd.MyCatalogue.C85_not_again",
    "Verif.Cmd.MyCatalogue.C85_functional_fails",
    "Verif.Cmd.MyCatalogue.C85_functional_example",
    "Verif.Cmd.MyCatalogue.C85_prefix_hides"
   ],
   "note": "Proved for tables whose indexes are visible B-trees on whole columns, for conditions of the outermost query (C72). Missing: other indexes, for which it is false. That the query texts mean these relational expressions is C98."
  },
  {
   "property": "C86",
   "status": "partial",
   "theorems": [
    "Verif.Report.C86_script",
    "Verif.Report.C86_reads_back_partial",
    "Verif.Report.C86_unencodable",
    "Verif.Report.C86_written",
    "Verif.Report.C86_proto_lost",
    "Verif.Report.C86_parts"
   ],
   "note": "Proved for all values with finite numbers and no member named __proto__. Missing: these two, where it is false (C86_unencodable, C86_proto_lost). Trusted: the models of encoding/json and html/template in a script, of the script states of the HTML tokenizer, and of the JavaScript literals."
  },
  {
   "property": "C87",
   "status": "partial",
   "theorems": [
    "Verif.Report.C87_shown_partial",
    "Verif.Report.C87_command_partial",
    "Verif.Report.C87_node_values",
    "Verif.Report.C87_blank",
    "Verif.Report.C87_examine_nothing",
    "Verif.Report.C87_no_suggestions"
   ],
   "note": "Proved for every run that did not examine an empty list. Missing: that case, where the page is blank (C87_blank, C87_examine_nothing). Drawing the charts and formatting SQL for Hasura are outside."
  },
  {
   "property": "C88",
   "status": "partial",
   "theorems": [
    "Verif.Report.C88_shown_partial",
    "Verif.Report.C88_command_partial",
    "Verif.Report.C88_path_lost",
    "Verif.Report.C88_blank",
    "Verif.Report.C88_none",
    "Verif.Report.C88_order_inverted"
   ],
   "note": "Proved for addresses http(s)://authority with or without a final slash, and for the order up to a millisecond (two in the second table). Missing: addresses with a path, whose path the links lose (C88_path_lost), addresses without a scheme, with which the page stays blank (C88_blank), and the exact order, which is false (C88_order_inverted). Trusted: the part of the WHATWG URL rules that is modelled, how the browser writes an authority; number formatting and mermaid are outside."
  },
  {
   "property": "C89",
   "status": "partial",
   "theorems": [
    "Verif.Infra.My.C89_roundtrip_partial",
    "Verif.Infra.My.C89_iff",
    "Verif.Infra.My.C89_env",
    "Verif.Infra.My.C89_user_colon",
    "Verif.Infra.My.C89_database_cut",
    "Verif.Infra.My.C89_slash_refused"
   ],
   "note": "Proved for settings that do not collide with the separators (passwords may contain anything), and C89_iff shows that without parameters there are no others. Missing: the colliding ones, where it is false (C89_user_colon, C89_database_cut) or refused (C89_slash_refused). Trusted: the models of FormatDSN and ParseDSN of go-sql-driver 1.6.0; what the driver makes of the parameters is outside."
  },
  {
   "property": "C90",
   "status": "partial",
   "theorems": [
    "Verif.Infra.HClient.C90_address",
    "Verif.Infra.HClient.C90_env",
    "Verif.Infra.HClient.C90_requests_partial",
    "Verif.Infra.HClient.C90_variables_rounded",
    "Verif.Infra.HClient.C90_success_iff",
    "Verif.Infra.HClient.C90_timed_partial",
    "Verif.Infra.HClient.C90_failed_query_timed",
    "Verif.Infra.HClient.C90_reading",
    "Verif.Infra.HClient.C90_lookups_read",
    "Verif.Infra.HClient.C90_lookup_ok"
   ],
   "note": "The address, the secret (both from the environment, C90_env; url.Parse is an oracle here, followed in C97), the query and the statements are proved to arrive; the variables for integers up to 2^53 (any nesting, any strings). Missing: larger integers, where it is false (C90_variables_rounded), other numbers, repeated names. Success is exactly status 200 for every request (C90_success_iff); that the timed queries ran is proved for servers that report failures with the status (C90_timed_partial) and false for GraphQL errors, which come with status 200 (C90_failed_query_timed). The lookups of columns and indexes are marked as reading (C90_lookups_read)."
  },
  {
   "property": "C91",
   "status": "partial",
   "theorems": [
    "Verif.Cmd.Told.C91_logged_partial",
    "Verif.Cmd.Told.C91_absolute_misplaced",
    "Verif.Cmd.Told.C91_told",
    "Verif.Cmd.Told.C91_told_jaeger",
    "Verif.Cmd.Told.C91_told_pi"
   ],
   "note": "Proved for relative output paths of any shape and any working directory (without symbolic links), and for all five commands that the line is logged exactly once and exactly on success. Missing: absolute output paths, where the path is wrong in every directory but the root (C91_absolute_misplaced)."
  },
  {
   "property": "C92",
   "status": "partial",
   "theorems": [
    "Verif.Client.Tooltip.C92_load_partial",
    "Verif.Client.Tooltip.C92_load_markup",
    "Verif.Client.Tooltip.C92_plan_partial",
    "Verif.Client.Tooltip.C92_plan_markup",
    "Verif.Client.Tooltip.C92_table_markup",
    "Verif.Client.Tooltip.rows_harmless",
    "Verif.Client.Tooltip.C92_time_shown",
    "Verif.Client.Tooltip.C92_zero_time_hidden",
    "Verif.Client.Tooltip.C92_pg_numbers",
    "Verif.Client.Tooltip.C92_hasura_numbers",
    "Verif.Client.Tooltip.C92_mysql_numbers"
   ],
   "note": "Proved against a model of the HTML tokenizer for all texts in which no `<` stands before a letter, `/`, `!` or `?` and no `&` starts a reference (comparisons such as `a < 3`, `b <> c`, `d<=e` are fine). Missing: texts with markup; the negations show that nothing is escaped: a string literal with a tag in a query becomes an element of the page with its event handlers, MySQL's `<temporary>` and `<subquery2>` vanish. A PostgreSQL time of 0 to the first row is shown as if the node was not executed."
  },
  {
   "property": "C93",
   "status": "partial",
   "theorems": [
    "Verif.Report.C93_timelines_partial",
    "Verif.Report.C93_ranking_partial",
    "Verif.Report.C93_blank"
   ],
   "note": "Proved from the answers of the service over the report (C82), the view models and the file (C86) to the rows of both tabs, given that what is written for a finite float is read back as this float. Missing: a load that is not finite (the AWS client accepts NaN and Infinity): C93_blank shows that one such load makes the whole page blank although the command succeeds; starts in zones off by part of an hour (C37)."
  },
  {
   "property": "C94",
   "status": "proved",
   "theorems": [
    "Verif.Cmd.Line.C94_options",
    "Verif.Cmd.Line.C94_exit",
    "Verif.Cmd.Line.C94_sound",
    "Verif.Cmd.Line.C94_values",
    "Verif.Cmd.Line.C94_examine_only_if_asked",
    "Verif.Cmd.Line.C94_extra_ignored",
    "Verif.Cmd.Line.C94_typo"
   ],
   "note": "About a model of spf13/cobra 1.6.1 and spf13/pflag 1.0.5 (trusted, written from knowledge of these libraries since their source is not in the repository). Two surprises are stated as theorems: further words are passed over (C94_extra_ignored) and a sub-command of `gr db` that does not exist is shown the help with exit status 0 (C94_typo)."
  },
  {
   "property": "C95",
   "status": "partial",
   "theorems": [
    "Verif.Report.Again.C95_sql",
    "Verif.Report.Again.C95_hasura",
    "Verif.Report.Again.C95_chosen",
    "Verif.Report.Again.C95_unsafe_refused",
    "Verif.Report.Again.C95_load_refused"
   ],
   "note": "Proved for selections of indexes with plain names. Missing: for names the command line cannot express the claim is false: the whole command is refused (C95_unsafe_refused), so that the other indexes are not examined either. The command shown by the load report is always refused by the program (C95_load_refused)."
  },
  {
   "property": "C96",
   "status": "partial",
   "theorems": [
    "Verif.Client.Mermaid.C96_drawn_partial",
    "Verif.Client.Mermaid.C96_single",
    "Verif.Client.Mermaid.C96_blocked",
    "Verif.Client.Mermaid.C96_too_long"
   ],
   "note": "Proved for traces of any shape whose service names have no punctuation but hyphens, dots and the like, do not begin with a word of mermaid's grammar and have no hyphen before an x, up to the 50000 characters mermaid accepts. False otherwise: C96_blocked (nothing is drawn), C96_too_long (an error picture). Names with spaces, colons and other separators are outside. Trusted: the model of mermaid 9.2.2's lexer, grammar and size limit, written from knowledge of it since its source is not in the repository."
  },
  {
   "property": "C97",
   "status": "partial",
   "theorems": [
    "Verif.Infra.Address.C97_reached_partial",
    "Verif.Infra.Address.C97_only_partial",
    "Verif.Infra.Address.C97_client",
    "Verif.Infra.Address.C97_local",
    "Verif.Infra.Address.C97_twice"
   ],
   "note": "Proved for addresses of letters, digits and -_.~$&+,/:;=?#, both what is reached and that nothing else is. User information, percent escapes, IPv6 addresses in brackets and characters that need escapes are outside. Negations: C97_local (an address without http:// is accepted, then every request fails), C97_twice (the address of the GraphQL endpoint itself). Trusted: url.Parse, URL.String and the checks of net/http, followed from the published source of Go 1.19, which is not in the repository. Redirects are not followed."
  },
  {
   "property": "C98",
   "status": "proved",
   "theorems": [
    "Verif.Infra.Fetch.C98_postgres",
    "Verif.Infra.Fetch.C98_postgres_answers",
    "Verif.Infra.Fetch.C98_mysql",
    "Verif.Infra.Fetch.C98_mysql_answers",
    "Verif.Infra.Fetch.C98_hasura_columns",
    "Verif.Infra.Fetch.C98_hasura_indexes",
    "Verif.Infra.Fetch.C98_suggest_postgres_sound",
    "Verif.Infra.Fetch.C98_suggest_postgres_complete_partial",
    "Verif.Infra.Fetch.C98_suggest_mysql_sound",
    "Verif.Infra.Fetch.C98_suggest_mysql_complete_partial",
    "Verif.Infra.Fetch.C98_suggest_hasura_sound",
    "Verif.Infra.Fetch.C98_suggest_hasura_complete_partial",
    "Verif.Infra.HClient.C98_suggest_http_sound",
    "Verif.Infra.HClient.C98_suggest_http_complete_partial"
   ],
   "note": "From the constant text through sqlx.In and Rebind (or the string replacement of the Hasura client) to a reader of a fragment of SQL and its meaning over the system tables; the conclusion is the hypothesis Reads of C83, C84 and C85. Trusted: the fragment's meaning (Verif/Sql/Query.lean), sqlx followed from its published source, one row of pg_index for each index, a collation in which texts that are equal both ways are the same. The suggesters over such a server: C98_suggest_* (with the restrictions of C83, C84 and C85). In C98_suggest_hasura_* a crash of the Hasura lookups counts as an error (it does not happen for a non-empty list of tables). C98_suggest_http_* are the same over the requests and answers of the HTTP client."
  },
  {
   "property": "C99",
   "status": "partial",
   "theorems": [
    "Verif.Cmd.Verbose.C99_report_told",
    "Verif.Cmd.Verbose.C99_line_no_option",
    "Verif.Cmd.Verbose.C99_transparent",
    "Verif.Cmd.Verbose.C99_secret_not_logged",
    "Verif.Cmd.Verbose.C99_requests_told",
    "Verif.Cmd.Verbose.C99_url_password_logged"
   ],
   "note": "Partial because a password in the address is logged (C99_url_password_logged) and a logged suggestion is not accepted by -i (C99_line_no_option); the rest holds without restriction for the modelled log. The console format (time, colours) and the log of the AWS client are not modelled."
  }
 ]
}
