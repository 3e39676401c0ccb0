import Verif.Report.Json
import Verif.Client.PlanView
import Verif.Client.Shell
import Verif.Client.Ddl
import Verif.Cmd.Suggest
/-!
# C87: the page that a `suggest` command writes

From the values of `createHTML` (`/repo/cmd/db/suggest/mysql.go:113-137`, `postgres.go:112-142`,
`hasura/postgres.go:159-190`) over the view models (`/repo/html/viewmodel/*.go`,
`/repo/html/build_option.go`) and the file (C86) to the cards of the page
(`/repo/client/src/stores/gr_param.ts`, `App.svelte`, `models/*SuggestData.ts`, `pages/suggest/*/*.svelte`,
`components/*.svelte`).  In Go a list that was never appended to is `nil`, which is `null` in JSON.
-/
namespace Verif.Report
open Verif.Lib Verif.Index Verif.Examine Verif.Client.PlanView Verif.Client.Ddl

/-! ## Names -/

/-- the `json:"…"` names of `/repo/html/build_option.go:7-62` and `/repo/html/viewmodel/*.go`, and the
properties read by the page -/
inductive Key where
  | dev | suggestData | digData | mysql | postgres | hasura | query | analyzeNodes | indexTargets
  | examinationCommandOptions | examinationResult | summaryText | gql | gqlVariables | performanceInsights | jaeger
  | originalTimeMillis | indexResults | indexTarget | executionTimeMillis | tableName | columns | name | isShort | value
  | text | title | estimatedInitCost | estimatedCost | estimatedReturnedRows | estimatedWidth | actualTimeFirstRow
  | actualTimeAvg | actualReturnedRows | actualLoopCount | children
  | traceId | sameServiceAccessCount | timeConsumingServiceName | root | spanId | startTimeMillis | endTimeMillis
  | serviceName | uiPath | slowThresholdMilli | sameServiceThreshold | slowTraces | sameServiceTraces
  | sqlDbLoads | tokenizedSqlDbLoads | timestamp | databases | sqls | sql | loadMax | loadSum | tokenizedId
deriving DecidableEq

/-- every name -/
def allKeys : List Key :=
  [.dev, .suggestData, .digData, .mysql, .postgres, .hasura, .query, .analyzeNodes, .indexTargets,
   .examinationCommandOptions, .examinationResult, .summaryText, .gql, .gqlVariables, .performanceInsights, .jaeger,
   .originalTimeMillis, .indexResults, .indexTarget, .executionTimeMillis, .tableName, .columns, .name, .isShort, .value,
   .text, .title, .estimatedInitCost, .estimatedCost, .estimatedReturnedRows, .estimatedWidth, .actualTimeFirstRow,
   .actualTimeAvg, .actualReturnedRows, .actualLoopCount, .children,
   .traceId, .sameServiceAccessCount, .timeConsumingServiceName, .root, .spanId, .startTimeMillis, .endTimeMillis,
   .serviceName, .uiPath, .slowThresholdMilli, .sameServiceThreshold, .slowTraces, .sameServiceTraces,
   .sqlDbLoads, .tokenizedSqlDbLoads, .timestamp, .databases, .sqls, .sql, .loadMax, .loadSum, .tokenizedId]

@[irreducible] def Key.str : Key → Str
  | .dev => "dev".toList
  | .suggestData => "suggestData".toList
  | .digData => "digData".toList
  | .mysql => "mysql".toList
  | .postgres => "postgres".toList
  | .hasura => "hasura".toList
  | .query => "query".toList
  | .analyzeNodes => "analyzeNodes".toList
  | .indexTargets => "indexTargets".toList
  | .examinationCommandOptions => "examinationCommandOptions".toList
  | .examinationResult => "examinationResult".toList
  | .summaryText => "summaryText".toList
  | .gql => "gql".toList
  | .gqlVariables => "gqlVariables".toList
  | .performanceInsights => "performanceInsights".toList
  | .jaeger => "jaeger".toList
  | .originalTimeMillis => "originalTimeMillis".toList
  | .indexResults => "indexResults".toList
  | .indexTarget => "indexTarget".toList
  | .executionTimeMillis => "executionTimeMillis".toList
  | .tableName => "tableName".toList
  | .columns => "columns".toList
  | .name => "name".toList
  | .isShort => "isShort".toList
  | .value => "value".toList
  | .text => "text".toList
  | .title => "title".toList
  | .estimatedInitCost => "estimatedInitCost".toList
  | .estimatedCost => "estimatedCost".toList
  | .estimatedReturnedRows => "estimatedReturnedRows".toList
  | .estimatedWidth => "estimatedWidth".toList
  | .actualTimeFirstRow => "actualTimeFirstRow".toList
  | .actualTimeAvg => "actualTimeAvg".toList
  | .actualReturnedRows => "actualReturnedRows".toList
  | .actualLoopCount => "actualLoopCount".toList
  | .children => "children".toList
  | .traceId => "traceId".toList
  | .sameServiceAccessCount => "sameServiceAccessCount".toList
  | .timeConsumingServiceName => "timeConsumingServiceName".toList
  | .root => "root".toList
  | .spanId => "spanId".toList
  | .startTimeMillis => "startTimeMillis".toList
  | .endTimeMillis => "endTimeMillis".toList
  | .serviceName => "serviceName".toList
  | .uiPath => "uiPath".toList
  | .slowThresholdMilli => "slowThresholdMilli".toList
  | .sameServiceThreshold => "sameServiceThreshold".toList
  | .slowTraces => "slowTraces".toList
  | .sameServiceTraces => "sameServiceTraces".toList
  | .sqlDbLoads => "sqlDbLoads".toList
  | .tokenizedSqlDbLoads => "tokenizedSqlDbLoads".toList
  | .timestamp => "timestamp".toList
  | .databases => "databases".toList
  | .sqls => "sqls".toList
  | .sql => "sql".toList
  | .loadMax => "loadMax".toList
  | .loadSum => "loadSum".toList
  | .tokenizedId => "tokenizedId".toList

/-- a struct, with its fields in order -/
def struct (fs : List (Key × Val)) : Val := .obj (fs.map fun p => (p.1.str, p.2))

/-! ## Model: the view models -/

/-- how numbers are written: integers and floats by `encoding/json` (`none`: `NaN` or infinite), and how the page
reads an integer -/
structure Nums (F : Type) where
  int : Int → Str
  float : F → Option Str
  readInt : Str → Option Int

/-- a slice made by `var s []T` and `append`: `nil` if nothing was appended -/
def appended (vs : List Val) : Val := if vs.isEmpty then .null else .arr vs

/-- a slice made by `lo.Map`: never `nil` -/
def mapped (vs : List Val) : Val := .arr vs

/-- `null.Float` -/
def nullFloat {F : Type} (N : Nums F) : Option F → Val
  | none => .null
  | some x => .num (N.float x)
/-- `null.Int` -/
def nullInt {F : Type} (N : Nums F) : Option Int → Val
  | none => .null
  | some n => .num (some (N.int n))

/-- `/repo/database/dmodel/index_target.go:67-76` with `/repo/html/viewmodel/vm_index_target.go` -/
def targetVal (it : IndexTarget) : Val :=
  struct [(.tableName, .str it.tableName), (.columns, appended (it.columns.map fun c => struct [(.name, .str c.name)]))]

/-- `/repo/database/dmodel/examination_index_result.go:19-24` -/
def indexResultVal {F : Type} (N : Nums F) (r : IndexResult) : Val :=
  struct [(.executionTimeMillis, .num (some (N.int r.millis))), (.indexTarget, targetVal r.target)]

/-- `/repo/database/dmodel/examination_result.go:17-27`; `nil` without an examination -/
def resultVal {F : Type} (N : Nums F) : Option Result → Val
  | none => .null
  | some r => struct [(.originalTimeMillis, .num (some (N.int r.origMillis))),
      (.indexResults, appended (r.indexResults.map (indexResultVal N)))]

/-- `/repo/html/viewmodel/vm_examination_command_option.go:8-12` -/
def optionVal (o : Cmd.CommandOption) : Val :=
  struct [(.isShort, .bool o.isShort), (.name, .str o.name), (.value, .str o.value)]

/-- the fields of `/repo/html/viewmodel/vm_mysql_explain_analyze_node.go:5-15` and (with the width)
`vm_postgres_explain_analyze_node.go:5-16` but for the children -/
def nodeFields {F : Type} (N : Nums F) (page : Page) (d : VmNode F) : List (Key × Val) :=
  [(.text, .str d.text), (.title, .str d.title), (.tableName, .str d.tableName),
   (.estimatedInitCost, nullFloat N d.estimatedInitCost), (.estimatedCost, nullFloat N d.estimatedCost),
   (.estimatedReturnedRows, nullInt N d.estimatedReturnedRows)] ++
  (if page = .mysql then [] else [(.estimatedWidth, nullInt N d.estimatedWidth)]) ++
  [(.actualTimeFirstRow, nullFloat N d.actualTimeFirstRow), (.actualTimeAvg, nullFloat N d.actualTimeAvg),
   (.actualReturnedRows, nullInt N d.actualReturnedRows), (.actualLoopCount, nullInt N d.actualLoopCount)]

mutual
/-- a node with its children, which are appended one by one -/
def nodeVal {F : Type} (N : Nums F) (page : Page) : Tree (VmNode F) → Val
  | .node d cs => struct (nodeFields N page d ++ [(.children, appended (nodeVals N page cs))])
def nodeVals {F : Type} (N : Nums F) (page : Page) : List (Tree (VmNode F)) → List Val
  | [] => []
  | t :: ts => nodeVal N page t :: nodeVals N page ts
end

/-- what `createHTML` is given -/
structure Input (F : Type) where
  query : Str
  nodes : List (Tree (VmNode F))
  summary : Str
  targets : List IndexTarget
  options : List Cmd.CommandOption
  result : Option Result
  /-- only for Hasura: the GraphQL document and the variables -/
  gql : Str
  vars : Val

/-- the fields shared by the three `…Data` structs, in the order they have there; the list of targets is made by
`lo.Map` for MySQL and Hasura, by appending for PostgreSQL (`/repo/cmd/db/suggest/mysql.go:114`,
`hasura/postgres.go:160`, `postgres.go:113-117`) -/
def commonFields {F : Type} (N : Nums F) (page : Page) (i : Input F) : List (Key × Val) :=
  [(.query, .str i.query), (.analyzeNodes, appended (nodeVals N page i.nodes))] ++
  (if page = .mysql then [] else [(.summaryText, .str i.summary)]) ++
  [(.indexTargets, if page = .postgres then appended (i.targets.map targetVal) else mapped (i.targets.map targetVal)),
   (.examinationCommandOptions, .arr (i.options.map optionVal)), (.examinationResult, resultVal N i.result)]

/-- `/repo/html/build_option.go:69-136` `NewSuggest…DataBuildOption` and `158-163`: the data of the page; the
pointers not set are `null` -/
def suggestVal {F : Type} (N : Nums F) (page : Page) (i : Input F) : Val :=
  let data := match page with
    | .mysql => struct [(.mysql, struct (commonFields N page i)), (.postgres, .null), (.hasura, .null)]
    | .postgres => struct [(.mysql, .null), (.postgres, struct (commonFields N page i)), (.hasura, .null)]
    | .hasura => struct [(.mysql, .null), (.postgres, .null), (.hasura, struct [(.postgres,
        struct ([(.gql, .str i.gql), (.gqlVariables, i.vars)] ++ commonFields N page i))])]
  struct [(.digData, .null), (.suggestData, data)]

/-! ## Model: the page -/

/-- a `TypeError`: nothing is mounted then, Svelte creates all components before it shows any -/
inductive Crash where
  | typeError
deriving DecidableEq, Repr

/-- a value of the page -/
inductive Js where
  | undef
  | val (v : Val)

/-- `x.k` -/
def Js.get (x : Js) (k : Key) : Except Crash Js :=
  match x with
  | .undef | .val .null => .error .typeError
  | .val (.obj fs) => match mapGet k.str fs with
    | some v => .ok (.val v)
    | none => .ok .undef
  | .val _ => .ok .undef

/-- `!!x`; a number is not asked for this -/
def Js.truthy : Js → Bool
  | .undef | .val .null => false
  | .val (.bool b) => b
  | .val (.str s) => !s.isEmpty
  | .val _ => true

/-- `for (… of x)`, `[...x]`, `x.map(…)` -/
def Js.items : Js → Except Crash (List Js)
  | .val (.arr vs) => .ok (vs.map .val)
  | _ => .error .typeError

/-- `x?.map(…)`; `none` is `undefined` -/
def Js.optItems : Js → Except Crash (Option (List Js))
  | .undef | .val .null => .ok none
  | x => x.items.map some

/-- a string that is used as one; other values count as failing -/
def Js.string : Js → Except Crash Str
  | .val (.str s) => .ok s
  | _ => .error .typeError
def Js.boolean : Js → Except Crash Bool
  | .val (.bool b) => .ok b
  | _ => .error .typeError
def Js.integer {F : Type} (N : Nums F) : Js → Except Crash Int
  | .val (.num (some t)) => match N.readInt t with
    | some n => .ok n
    | none => .error .typeError
  | _ => .error .typeError

/-- what the methods of `/repo/client/src/models/IndexTarget.ts` read -/
def readColumn (x : Js) : Except Crash IndexColumn := do return ⟨← (← x.get .name).string⟩
def readTarget (x : Js) : Except Crash IndexTarget := do
  let t ← (← x.get .tableName).string
  let cs ← (← (← x.get .columns).items).mapM readColumn
  return ⟨t, cs⟩

/-- `/repo/client/src/models/ExaminationCommandOption.ts:1-4` -/
def readOption (x : Js) : Except Crash Client.Shell.CommandOption := do
  return ⟨← (← x.get .name).string, ← (← x.get .value).string, ← (← x.get .isShort).boolean⟩

/-- `/repo/client/src/models/ExaminationIndexResult.ts` -/
def readIndexResult {F : Type} (N : Nums F) (x : Js) : Except Crash IndexResult := do
  return ⟨← readTarget (← x.get .indexTarget), ← (← x.get .executionTimeMillis).integer N⟩

/-- a plan node on the page, without its children -/
abbrev NodeObj := List (Str × Val)

mutual
/-- the nodes that the walks over a plan reach from a value: `if (current.children)` and a loop over them
(`/repo/client/src/components/ExplainText.svelte:16-22`, `ExplainTree.ts`); `none` is a `TypeError` -/
def decode : Val → Option (Tree NodeObj)
  | .obj fs => (decodeKids fs).map fun cs => .node (fs.filter fun p => p.1 ≠ Key.children.str) cs
  | _ => none
/-- `current.children` -/
def decodeKids : List (Str × Val) → Option (List (Tree NodeObj))
  | [] => some []
  | (k, v) :: fs => if k = Key.children.str then decodeArr v else decodeKids fs
def decodeArr : Val → Option (List (Tree NodeObj))
  | .arr vs => decodeL vs
  | .null => some []
  | _ => none
def decodeL : List Val → Option (List (Tree NodeObj))
  | [] => some []
  | v :: vs =>
    match decode v, decodeL vs with
    | some t, some ts => some (t :: ts)
    | _, _ => none
end

/-- the nodes of a plan -/
def readNodes : Js → Except Crash (List (Tree NodeObj))
  | .val (.arr vs) => match decodeL vs with
    | some ts => .ok ts
    | none => .error .typeError
  | _ => .error .typeError

/-- a `DetailsCard` of the pages `/repo/client/src/pages/suggest/*/Suggest*Page.svelte` -/
inductive Card where
  | gql (text : Str) (vars : Js)
  | sql (text : Str)
  | explain (nodes : List (Tree NodeObj)) (trailing : Str)
  | timeline (nodes : List (Tree NodeObj))
  | suggestion (targets : List Str) (command : Str)
  | examination (origMillis : Int) (rows : List Row)

/-- the command shown for a page -/
def subCommand : Page → Client.Shell.SubCommand
  | .mysql => .mysql
  | .postgres => .postgres
  | .hasura => .hasuraPostgres

/-- outside: `sql-formatter` (it throws on what it cannot read), `Array.prototype.sort` -/
structure Libs where
  format : Str → Except Crash Str
  sort : List IndexResult → List IndexResult

/-- `createExaminationResult` of the three models: `MysqlSuggestData.ts:29-33` hands the object over,
`PostgresSuggestData.ts:31-45` and `HasuraSuggestData.ts:43-57` loop over `indexResults` -/
def createResult (page : Page) (x : Js) : Except Crash Js :=
  if x.truthy then
    if page = .mysql then .ok x
    else do
      let _ ← (← x.get .indexResults).items
      return x
  else .ok .undef

/-- the object of `/repo/client/src/models/BaseSuggestData.ts` and its subclasses; `none` is `undefined` -/
structure Data where
  query : Js
  targets : Option (List Js)
  options : Option (List Js)
  result : Js
  nodes : Js
  summary : Js
  gql : Js
  vars : Js

/-- `this.query`, which for Hasura is formatted (`HasuraSuggestData.ts:23-25`) -/
def shownQuery (L : Libs) (page : Page) (x : Js) : Except Crash Js :=
  if page = .hasura then do
    let q ← L.format (← x.string)
    return .val (.str q)
  else .ok x

/-- the constructors (`BaseSuggestData.ts:17-28` and those of the subclasses) -/
def newData (L : Libs) (page : Page) (x : Js) : Except Crash Data := do
  let query ← x.get .query
  let targets ← (← x.get .indexTargets).optItems
  let options ← (← x.get .examinationCommandOptions).optItems
  let result ← createResult page (← x.get .examinationResult)
  let query ← shownQuery L page query
  let nodes ← x.get .analyzeNodes
  let summary ← x.get .summaryText
  let gql ← x.get .gql
  let vars ← x.get .gqlVariables
  return ⟨query, targets, options, result, nodes, summary, gql, vars⟩

/-- "GraphQL query", only in `SuggestHasuraPage.svelte:21-25` -/
def gqlCard (page : Page) (d : Data) : Except Crash (List Card) :=
  if page = .hasura && d.gql.truthy then do return [.gql (← d.gql.string) d.vars] else .ok []

/-- "SQL" -/
def sqlCard (d : Data) : Except Crash (List Card) :=
  if d.query.truthy then do return [.sql (← d.query.string)] else .ok []

/-- "Explain Tree" (`ExplainText.svelte`): the default of the trailing text is empty, and the page of MySQL does not
give one -/
def explainCard (page : Page) (d : Data) : Except Crash (List Card) :=
  if d.nodes.truthy then do
    let ns ← readNodes d.nodes
    let tr ← if page = .mysql then .ok [] else d.summary.string
    return [.explain ns tr]
  else .ok []

/-- "Execution Timeline" or "Estimated Timeline" -/
def timelineCard (d : Data) : Except Crash (List Card) :=
  if d.nodes.truthy then do return [.timeline (← readNodes d.nodes)] else .ok []

/-- "Index suggestion" (`IndexSuggestion.svelte`; all boxes are checked at first) -/
def suggestionCard (page : Page) (d : Data) : Except Crash (List Card) :=
  match d.targets, d.options with
  | none, _ => .ok []
  | some _, none => .error .typeError
  | some ts, some os => do
    let its ← ts.mapM readTarget
    let os ← os.mapM readOption
    return [.suggestion (its.map describe) (Client.Shell.examineCommand (subCommand page) os its)]

/-- "Examination Result" (`ExaminationResultTable.svelte`; `[...result?.indexResults]` needs a list) -/
def examinationCard {F : Type} (N : Nums F) (L : Libs) (page : Page) (d : Data) : Except Crash (List Card) :=
  if d.result.truthy then do
    let rs ← (← (← d.result.get .indexResults).items).mapM (readIndexResult N)
    let orig ← (← d.result.get .originalTimeMillis).integer N
    return [.examination orig (tableRows page L.sort ⟨orig, rs⟩)]
  else .ok []

/-- `/repo/client/src/pages/suggest/{mysql,postgres,hasura}/Suggest*Page.svelte` -/
def render {F : Type} (N : Nums F) (L : Libs) (page : Page) (d : Data) : Except Crash (List Card) := do
  let g ← gqlCard page d
  let q ← sqlCard d
  let e ← explainCard page d
  let t ← timelineCard d
  let s ← suggestionCard page d
  let x ← examinationCard N L page d
  return g ++ q ++ e ++ t ++ s ++ x

/-- what is to be seen -/
inductive Shown where
  | suggest (page : Page) (cards : List Card)
  | dig (data : Js)
  | nothing

/-- one of the three parts of `/repo/client/src/models/SuggestData.ts:11-24` -/
def newPart (L : Libs) (page : Page) (x : Js) : Except Crash (Option Data) :=
  if x.truthy then do
    let y ← if page = .hasura then x.get .postgres else .ok x
    let d ← newData L page y
    return some d
  else .ok none

/-- `/repo/client/src/models/SuggestData.ts` and the choice of the page in `App.svelte:27-40,62-74` -/
def suggestPage {F : Type} (N : Nums F) (L : Libs) (sd : Js) : Except Crash Shown := do
  let m ← newPart L .mysql (← sd.get .mysql)
  let g ← newPart L .postgres (← sd.get .postgres)
  let h ← newPart L .hasura (← sd.get .hasura)
  match m, g, h with
  | some d, _, _ => return .suggest .mysql (← render N L .mysql d)
  | none, some d, _ => return .suggest .postgres (← render N L .postgres d)
  | none, none, some d => return .suggest .hasura (← render N L .hasura d)
  | none, none, none => return .nothing

/-- `/repo/client/src/stores/gr_param.ts` and `/repo/client/src/App.svelte:11-40` with the parameter of the file,
which has no `dev`.  The page of a load report is not followed here. -/
def app {F : Type} (N : Nums F) (L : Libs) (param : Val) : Except Crash Shown := do
  let _ ← (Js.val param).get .dev
  let sd ← (Js.val param).get .suggestData
  let dd ← (Js.val param).get .digData
  if sd.truthy then suggestPage N L sd else return .dig (← dd.get .performanceInsights)

/-- opening the file in a browser -/
def openPage {F : Type} (N : Nums F) (L : Libs) (page : Str) : Except Crash Shown :=
  match browserParam page with
  | some v => app N L v
  | none => .error .typeError

/-! ## Specification -/

/-- a number of milliseconds that a number of the page can hold (some 285000 years) -/
def Exact (n : Int) : Prop := n.natAbs ≤ 2 ^ 53

instance (n : Int) : Decidable (Exact n) := by unfold Exact; infer_instance

/-- numbers: integers and the (finite) floats of plans are written with the characters of numbers, and an
integer that a number of the page can hold is read back -/
structure Nums.Ok {F : Type} (N : Nums F) : Prop where
  int : ∀ n, N.int n ≠ [] ∧ ∀ c ∈ N.int n, isNumChar c = true
  float : ∀ x, ∃ t, N.float x = some t ∧ t ≠ [] ∧ ∀ c ∈ t, isNumChar c = true
  read : ∀ n, Exact n → N.readInt (N.int n) = some n

/-- the properties of a node on the page -/
def nodeObj {F : Type} (N : Nums F) (page : Page) (d : VmNode F) : NodeObj :=
  (nodeFields N page d).map fun p => (p.1.str, p.2)

/-- an option of a command, as known to the page -/
def clientOption (o : Cmd.CommandOption) : Client.Shell.CommandOption := ⟨o.name, o.value, o.isShort⟩

/-- the cards that should be there, each from the values of the run; `sql` is the query as shown -/
def Expected {F : Type} (N : Nums F) (L : Libs) (page : Page) (sql : Str) (i : Input F) : List Card :=
  (if page = .hasura ∧ i.gql ≠ [] then [.gql i.gql (.val i.vars)] else []) ++
  (if sql ≠ [] then [.sql sql] else []) ++
  (if i.nodes ≠ [] then
    [.explain (mapL (nodeObj N page) i.nodes) (if page = .mysql then [] else i.summary),
     .timeline (mapL (nodeObj N page) i.nodes)] else []) ++
  (if page = .postgres ∧ i.targets = [] then [] else
    [.suggestion (i.targets.map describe)
      (Client.Shell.examineCommand (subCommand page) (i.options.map clientOption) i.targets)]) ++
  (match i.result with
    | none => []
    | some r => [.examination r.origMillis (tableRows page L.sort r)])

/-- an examination whose every time can be held, with at least one index and no index without columns -/
structure Showable (r : Result) : Prop where
  some : r.indexResults ≠ []
  columns : ∀ y ∈ r.indexResults, y.target.columns ≠ []
  exact : Exact r.origMillis ∧ ∀ y ∈ r.indexResults, Exact y.millis

/-! ## Proofs: structs -/

theorem mem_allKeys : ∀ k : Key, k ∈ allKeys := by intro k; cases k <;> decide

theorem str_nodup : (allKeys.map Key.str).Nodup := by decide +kernel

theorem str_proto : protoKey ∉ allKeys.map Key.str := by decide +kernel

theorem str_inj {a b : Key} (h : a.str = b.str) : a = b :=
  List.inj_on_of_nodup_map str_nodup (mem_allKeys a) (mem_allKeys b) h

theorem str_ne_proto (k : Key) : k.str ≠ protoKey := fun h =>
  str_proto (h ▸ List.mem_map_of_mem (mem_allKeys k))

theorem get_struct (fs : List (Key × Val)) (k : Key) :
    (Js.val (struct fs)).get k = .ok (match mapGet k fs with
      | some v => .val v
      | none => .undef) := by
  have : mapGet k.str (fs.map fun p => (p.1.str, p.2)) = mapGet k fs := by
    induction fs with
    | nil => rfl
    | cons p fs ih =>
      rw [List.map_cons, mapGet, mapGet, ih]
      by_cases h : k = p.1
      · rw [if_pos h, if_pos (by rw [h])]
      · rw [if_neg h, if_neg (fun e => h (str_inj e))]
  unfold struct Js.get
  simp only [this]
  cases mapGet k fs <;> rfl

theorem soundF_iff : ∀ fs : List (Str × Val), SoundF fs ↔ ∀ p ∈ fs, Sound p.2
  | [] => by simp [SoundF]
  | (k, v) :: fs => by simp [SoundF, soundF_iff fs]
theorem soundL_iff : ∀ vs : List Val, SoundL vs ↔ ∀ v ∈ vs, Sound v
  | [] => by simp [SoundL]
  | v :: vs => by simp [SoundL, soundL_iff vs]
theorem finiteF_iff : ∀ fs : List (Str × Val), finiteF fs = true ↔ ∀ p ∈ fs, finite p.2 = true
  | [] => by simp [finiteF]
  | (k, v) :: fs => by simp [finiteF, finiteF_iff fs]
theorem finiteL_iff : ∀ vs : List Val, finiteL vs = true ↔ ∀ v ∈ vs, finite v = true
  | [] => by simp [finiteL]
  | v :: vs => by simp [finiteL, finiteL_iff vs]

/-- what can be embedded and read back -/
def Good (v : Val) : Prop := Sound v ∧ finite v = true

theorem good_struct {fs : List (Key × Val)} (hn : (fs.map (·.1)).Nodup) (h : ∀ p ∈ fs, Good p.2) :
    Good (struct fs) := by
  have e : (fs.map fun p => (p.1.str, p.2)).map (·.1) = (fs.map (·.1)).map Key.str := by simp
  constructor
  · rw [struct, Sound, e, soundF_iff]
    refine ⟨hn.map (fun a b => str_inj), ?_, ?_⟩
    · rw [List.mem_map]
      rintro ⟨k, -, hk⟩
      exact str_ne_proto k hk
    · intro p hp
      obtain ⟨q, hq, rfl⟩ := List.mem_map.1 hp
      exact (h q hq).1
  · rw [struct, finite, finiteF_iff]
    intro p hp
    obtain ⟨q, hq, rfl⟩ := List.mem_map.1 hp
    exact (h q hq).2

theorem good_null : Good .null := ⟨by simp [Sound], rfl⟩
theorem good_str (s : Str) : Good (.str s) := ⟨by simp [Sound], rfl⟩
theorem good_bool (b : Bool) : Good (.bool b) := ⟨by simp [Sound], rfl⟩
theorem good_arr {vs : List Val} (h : ∀ v ∈ vs, Good v) : Good (.arr vs) :=
  ⟨by rw [Sound, soundL_iff]; exact fun v hv => (h v hv).1, by rw [finite, finiteL_iff]; exact fun v hv => (h v hv).2⟩
theorem good_appended {vs : List Val} (h : ∀ v ∈ vs, Good v) : Good (appended vs) := by
  unfold appended
  split
  · exact good_null
  · exact good_arr h

variable {F : Type} {N : Nums F}

theorem good_int (hN : N.Ok) (n : Int) : Good (.num (some (N.int n))) := by
  refine ⟨?_, rfl⟩
  rw [Sound]
  intro x hx
  cases hx
  exact hN.int n
theorem good_nullInt (hN : N.Ok) (n : Option Int) : Good (nullInt N n) := by
  cases n with
  | none => exact good_null
  | some n => exact good_int hN n
theorem good_nullFloat (hN : N.Ok) (x : Option F) : Good (nullFloat N x) := by
  cases x with
  | none => exact good_null
  | some x =>
    obtain ⟨t, h1, h2⟩ := hN.float x
    refine ⟨?_, by rw [nullFloat, h1]; rfl⟩
    rw [nullFloat, h1, Sound]
    intro y hy
    cases hy
    exact h2

theorem good_target (it : IndexTarget) : Good (targetVal it) := by
  refine good_struct (by simp) ?_
  simp only [List.mem_cons, List.not_mem_nil, or_false, forall_eq_or_imp, forall_eq]
  refine ⟨good_str _, good_appended ?_⟩
  intro v hv
  obtain ⟨c, -, rfl⟩ := List.mem_map.1 hv
  refine good_struct (by simp) ?_
  simp only [List.mem_cons, List.not_mem_nil, or_false, forall_eq]
  exact good_str _

theorem good_result (hN : N.Ok) (r : Option Result) : Good (resultVal N r) := by
  cases r with
  | none => exact good_null
  | some r =>
    refine good_struct (by simp) ?_
    simp only [List.mem_cons, List.not_mem_nil, or_false, forall_eq_or_imp, forall_eq]
    refine ⟨good_int hN _, good_appended ?_⟩
    intro v hv
    obtain ⟨x, -, rfl⟩ := List.mem_map.1 hv
    refine good_struct (by simp) ?_
    simp only [List.mem_cons, List.not_mem_nil, or_false, forall_eq_or_imp, forall_eq]
    exact ⟨good_int hN _, good_target _⟩

theorem good_fields (hN : N.Ok) (page : Page) (d : VmNode F) : ∀ p ∈ nodeFields N page d, Good p.2 := by
  unfold nodeFields
  cases page <;>
  simp only [reduceCtorEq, if_true, if_false, List.append_nil, List.cons_append, List.nil_append, List.mem_cons,
    List.not_mem_nil, or_false, forall_eq_or_imp, forall_eq, good_str, good_nullInt hN, good_nullFloat hN, and_self]

theorem keys_fields (page : Page) (d : VmNode F) :
    ((nodeFields N page d).map (·.1) ++ [Key.children]).Nodup := by
  unfold nodeFields
  cases page <;>
  simp only [reduceCtorEq, if_true, if_false, List.append_nil, List.cons_append, List.nil_append, List.map_cons,
    List.map_nil] <;> decide

mutual
theorem good_node (hN : N.Ok) (page : Page) : ∀ t : Tree (VmNode F), Good (nodeVal N page t)
  | .node d cs => by
    rw [nodeVal]
    refine good_struct (by rw [List.map_append]; exact keys_fields page d) ?_
    intro p hp
    rw [List.mem_append] at hp
    rcases hp with hp | hp
    · exact good_fields hN page d p hp
    · rw [List.mem_singleton] at hp
      subst hp
      exact good_appended (good_nodes hN page cs)
theorem good_nodes (hN : N.Ok) (page : Page) : ∀ ts : List (Tree (VmNode F)), ∀ v ∈ nodeVals N page ts, Good v
  | [] => by simp [nodeVals]
  | t :: ts => by
    rw [nodeVals]
    intro v hv
    rw [List.mem_cons] at hv
    rcases hv with hv | hv
    · rw [hv]; exact good_node hN page t
    · exact good_nodes hN page ts v hv
end

theorem good_option (o : Cmd.CommandOption) : Good (optionVal o) := by
  refine good_struct (by simp) ?_
  simp only [List.mem_cons, List.not_mem_nil, or_false, forall_eq_or_imp, forall_eq]
  exact ⟨good_bool _, good_str _, good_str _⟩

theorem good_common (hN : N.Ok) (page : Page) (i : Input F) : ∀ p ∈ commonFields N page i, Good p.2 := by
  have h1 : ∀ v ∈ i.targets.map targetVal, Good v := by
    intro v hv; obtain ⟨x, -, rfl⟩ := List.mem_map.1 hv; exact good_target x
  have h2 : ∀ v ∈ i.options.map optionVal, Good v := by
    intro v hv; obtain ⟨x, -, rfl⟩ := List.mem_map.1 hv; exact good_option x
  unfold commonFields mapped
  cases page <;>
  simp only [reduceCtorEq, if_true, if_false, List.append_nil, List.cons_append, List.nil_append, List.mem_cons,
    List.not_mem_nil, or_false, forall_eq_or_imp, forall_eq, good_str, good_appended (good_nodes hN _ i.nodes),
    good_appended h1, good_arr h1, good_arr h2, good_result hN, and_self]

theorem good_suggest (hN : N.Ok) (page : Page) (i : Input F) (hv : Good i.vars) : Good (suggestVal N page i) := by
  have hk : ∀ page : Page, ((commonFields N page i).map (·.1)).Nodup := by
    intro page
    unfold commonFields
    cases page <;>
    simp only [reduceCtorEq, if_true, if_false, List.append_nil, List.cons_append, List.nil_append, List.map_cons,
      List.map_nil] <;> decide
  have hk2 : (([(Key.gql, Val.str i.gql), (Key.gqlVariables, i.vars)] ++ commonFields N .hasura i).map (·.1)).Nodup := by
    unfold commonFields
    simp only [reduceCtorEq, if_true, if_false, List.append_nil, List.cons_append, List.nil_append, List.map_cons,
      List.map_nil] <;> decide
  unfold suggestVal
  refine good_struct (by simp) ?_
  simp only [List.mem_cons, List.not_mem_nil, or_false, forall_eq_or_imp, forall_eq]
  refine ⟨good_null, ?_⟩
  cases page
  · refine good_struct (by simp) ?_
    simp only [List.mem_cons, List.not_mem_nil, or_false, forall_eq_or_imp, forall_eq]
    exact ⟨good_struct (hk _) (good_common hN _ i), good_null, good_null⟩
  · refine good_struct (by simp) ?_
    simp only [List.mem_cons, List.not_mem_nil, or_false, forall_eq_or_imp, forall_eq]
    exact ⟨good_null, good_struct (hk _) (good_common hN _ i), good_null⟩
  · refine good_struct (by simp) ?_
    simp only [List.mem_cons, List.not_mem_nil, or_false, forall_eq_or_imp, forall_eq]
    refine ⟨good_null, good_null, good_struct (by simp) ?_⟩
    simp only [List.mem_cons, List.not_mem_nil, or_false, forall_eq]
    refine good_struct hk2 ?_
    intro p hp
    rw [List.mem_append] at hp
    rcases hp with hp | hp
    · simp only [List.mem_cons, List.not_mem_nil, or_false] at hp
      rcases hp with rfl | rfl
      · exact good_str _
      · exact hv
    · exact good_common hN _ i p hp

/-! ## Proofs: reading back -/

theorem mapM_back {α : Type} (f : α → Val) (g : Js → Except Crash α) (l : List α)
    (h : ∀ x ∈ l, g (.val (f x)) = .ok x) : ((l.map f).map Js.val).mapM g = .ok l := by
  induction l with
  | nil => rfl
  | cons x l ih =>
    rw [List.map_cons, List.map_cons, List.mapM_cons, h x (List.mem_cons_self ..),
      ih fun y hy => h y (List.mem_cons_of_mem _ hy)]
    rfl

theorem mapM_back' {α β : Type} (f : α → Val) (k : α → β) (g : Js → Except Crash β) (l : List α)
    (h : ∀ x ∈ l, g (.val (f x)) = .ok (k x)) : ((l.map f).map Js.val).mapM g = .ok (l.map k) := by
  induction l with
  | nil => rfl
  | cons x l ih =>
    rw [List.map_cons, List.map_cons, List.mapM_cons, h x (List.mem_cons_self ..),
      ih fun y hy => h y (List.mem_cons_of_mem _ hy)]
    rfl

theorem read_target (it : IndexTarget) (h : it.columns ≠ []) : readTarget (.val (targetVal it)) = .ok it := by
  have h1 : ((it.columns.map fun c => struct [(.name, .str c.name)]).map Js.val).mapM readColumn = .ok it.columns :=
    mapM_back _ _ _ fun c _ => by rw [readColumn, get_struct]; rfl
  have h2 : (Js.val (appended (it.columns.map fun c => struct [(.name, .str c.name)]))).items =
      .ok ((it.columns.map fun c => struct [(.name, .str c.name)]).map Js.val) := by
    unfold appended
    rw [if_neg (by simpa using h)]
    rfl
  unfold readTarget targetVal
  rw [get_struct, get_struct]
  simp only [mapGet, bind, Except.bind, reduceCtorEq, if_true, if_false, h2, h1, Js.string]
  rfl

theorem read_index_result (hN : N.Ok) (r : IndexResult) (h : r.target.columns ≠ []) (hm : Exact r.millis) :
    readIndexResult N (.val (indexResultVal N r)) = .ok r := by
  unfold readIndexResult indexResultVal
  rw [get_struct, get_struct]
  simp only [mapGet, bind, Except.bind, reduceCtorEq, if_true, if_false, read_target r.target h, Js.integer,
    hN.read _ hm]
  rfl

theorem read_option (o : Cmd.CommandOption) : readOption (.val (optionVal o)) = .ok (clientOption o) := by
  unfold readOption optionVal
  rw [get_struct, get_struct, get_struct]
  rfl

theorem decodeKids_skip (l r : List (Str × Val)) (h : ∀ p ∈ l, p.1 ≠ Key.children.str) :
    decodeKids (l ++ r) = decodeKids r := by
  induction l with
  | nil => rfl
  | cons p l ih =>
    rw [List.cons_append, decodeKids, if_neg (h p (List.mem_cons_self ..)),
      ih fun q hq => h q (List.mem_cons_of_mem _ hq)]

theorem decodeArr_appended (vs : List Val) : decodeArr (appended vs) = decodeL vs := by
  unfold appended
  cases vs with
  | nil => rfl
  | cons v vs => rw [if_neg (by simp), decodeArr]

mutual
theorem decode_node (page : Page) : ∀ t : Tree (VmNode F), decode (nodeVal N page t) = some (t.map (nodeObj N page))
  | .node d cs => by
    have hk : ∀ p ∈ nodeObj N page d, p.1 ≠ Key.children.str := by
      intro p hp
      obtain ⟨q, hq, rfl⟩ := List.mem_map.1 hp
      intro e
      have := (List.nodup_append.1 (keys_fields (N := N) page d)).2.2 q.1 (List.mem_map_of_mem hq) Key.children
        (by simp)
      exact this (str_inj e)
    rw [nodeVal, struct, List.map_append, decode]
    change (decodeKids (nodeObj N page d ++ _)).map _ = _
    rw [decodeKids_skip _ _ hk, List.map_cons, decodeKids, if_pos rfl, decodeArr_appended, decode_nodes page cs,
      Option.map_some, List.filter_append]
    have h1 : (nodeObj N page d).filter (fun p => p.1 ≠ Key.children.str) = nodeObj N page d := by
      rw [List.filter_eq_self]
      intro p hp
      simpa using hk p hp
    change some (Tree.node (List.filter _ (nodeObj N page d) ++ _) _) = _
    rw [h1]
    simp [Tree.map]
theorem decode_nodes (page : Page) : ∀ ts : List (Tree (VmNode F)),
    decodeL (nodeVals N page ts) = some (mapL (nodeObj N page) ts)
  | [] => by simp [nodeVals, decodeL, mapL]
  | t :: ts => by rw [nodeVals, decodeL, decode_node page t, decode_nodes page ts, mapL]
end

/-! ## Proofs: the cards -/

theorem items_arr (vs : List Val) : (Js.val (.arr vs)).items = .ok (vs.map Js.val) := rfl
theorem optItems_arr (vs : List Val) : (Js.val (.arr vs)).optItems = .ok (some (vs.map Js.val)) := rfl

theorem nodes_truthy (page : Page) (ns : List (Tree (VmNode F))) :
    (Js.val (appended (nodeVals N page ns))).truthy = decide (ns ≠ []) := by
  cases ns with
  | nil => rfl
  | cons t ts => rfl

theorem read_nodes (page : Page) (ns : List (Tree (VmNode F))) (h : ns ≠ []) :
    readNodes (.val (appended (nodeVals N page ns))) = .ok (mapL (nodeObj N page) ns) := by
  cases ns with
  | nil => exact absurd rfl h
  | cons t ts =>
    have e : appended (nodeVals N page (t :: ts)) = .arr (nodeVals N page (t :: ts)) := by
      rw [nodeVals]; rfl
    rw [e, readNodes, decode_nodes]

/-- the targets handed to the page -/
def targetsVal (page : Page) (its : List IndexTarget) : Val :=
  if page = .postgres then appended (its.map targetVal) else mapped (its.map targetVal)

theorem opt_targets (page : Page) (its : List IndexTarget) :
    (Js.val (targetsVal page its)).optItems =
      .ok (if page = .postgres ∧ its = [] then none else some ((its.map targetVal).map Js.val)) := by
  unfold targetsVal mapped appended
  cases page <;> cases its <;> rfl

/-- the examination handed to the page -/
def resultJs (N : Nums F) : Option Result → Js
  | none => .undef
  | some x => .val (resultVal N (some x))

theorem create_result (page : Page) (r : Option Result) (h : ∀ x, r = some x → x.indexResults ≠ []) :
    createResult page (.val (resultVal N r)) = .ok (resultJs N r) := by
  cases r with
  | none => rfl
  | some x =>
    have h2 := h x rfl
    unfold createResult
    have e : (appended (x.indexResults.map (indexResultVal N))) = .arr (x.indexResults.map (indexResultVal N)) := by
      unfold appended; rw [if_neg (by simpa using h2)]
    rw [if_pos (show (Js.val (resultVal N (some x))).truthy = true from rfl)]
    by_cases hp : page = .mysql
    · subst hp; rfl
    · rw [if_neg hp, resultVal, get_struct]
      simp only [mapGet, bind, Except.bind, reduceCtorEq, if_true, if_false, e, items_arr]
      rw [resultJs, resultVal, e]
      rfl

theorem create_result_null (page : Page) (hp : page ≠ .mysql) (x : Result) (h : x.indexResults = []) :
    createResult page (.val (resultVal N (some x))) = .error .typeError := by
  unfold createResult
  rw [if_pos (show (Js.val (resultVal N (some x))).truthy = true from rfl), if_neg hp, resultVal, get_struct, h]; rfl

/-- the data object made of the values of a run -/
def dataOf (N : Nums F) (page : Page) (sql : Str) (i : Input F) : Data where
  query := .val (.str sql)
  targets := if page = .postgres ∧ i.targets = [] then none else some ((i.targets.map targetVal).map Js.val)
  options := some ((i.options.map optionVal).map Js.val)
  result := resultJs N i.result
  nodes := .val (appended (nodeVals N page i.nodes))
  summary := if page = .mysql then .undef else .val (.str i.summary)
  gql := if page = .hasura then .val (.str i.gql) else .undef
  vars := if page = .hasura then .val i.vars else .undef

/-- the struct of a page -/
def dataVal (N : Nums F) (page : Page) (i : Input F) : Val :=
  if page = .hasura then struct ([(.gql, .str i.gql), (.gqlVariables, i.vars)] ++ commonFields N page i)
  else struct (commonFields N page i)

/-- the query as the page shows it -/
def QueryShown (L : Libs) (page : Page) (query sql : Str) : Prop :=
  if page = .hasura then L.format query = .ok sql else sql = query

theorem new_data (L : Libs) (page : Page) (i : Input F) (sql : Str) (hq : QueryShown L page i.query sql)
    (hc : createResult page (.val (resultVal N i.result)) = .ok (resultJs N i.result)) :
    newData L page (.val (dataVal N page i)) = .ok (dataOf N page sql i) := by
  have ht := opt_targets page i.targets
  unfold QueryShown at hq
  unfold newData dataVal commonFields dataOf
  cases page <;>
  simp only [reduceCtorEq, if_true, if_false, targetsVal] at hq hc ht ⊢ <;>
  simp only [get_struct, List.cons_append, List.nil_append, List.append_nil, mapGet, bind, Except.bind, reduceCtorEq,
    if_true, if_false, ht, hc, optItems_arr, shownQuery, Js.string, hq] <;> rfl

/-- all cards but the examination -/
def Before (N : Nums F) (page : Page) (sql : Str) (i : Input F) : List Card :=
  (if page = .hasura ∧ i.gql ≠ [] then [.gql i.gql (.val i.vars)] else []) ++
  (if sql ≠ [] then [.sql sql] else []) ++
  (if i.nodes ≠ [] then
    [.explain (mapL (nodeObj N page) i.nodes) (if page = .mysql then [] else i.summary)] else []) ++
  (if i.nodes ≠ [] then [.timeline (mapL (nodeObj N page) i.nodes)] else []) ++
  (if page = .postgres ∧ i.targets = [] then [] else
    [.suggestion (i.targets.map describe)
      (Client.Shell.examineCommand (subCommand page) (i.options.map clientOption) i.targets)])

theorem cards_before (L : Libs) (page : Page) (i : Input F) (sql : Str)
    (ht : ∀ it ∈ i.targets, it.columns ≠ []) :
    render N L page (dataOf N page sql i) =
      (do return Before N page sql i ++ (← examinationCard N L page (dataOf N page sql i))) := by
  have h1 : gqlCard page (dataOf N page sql i) =
      .ok (if page = .hasura ∧ i.gql ≠ [] then [.gql i.gql (.val i.vars)] else []) := by
    unfold gqlCard dataOf
    cases page <;> simp only [reduceCtorEq, if_true, if_false, false_and, decide_false, decide_true, Bool.false_and,
      Bool.true_and, Bool.false_eq_true, true_and]
    cases hg : i.gql <;> rfl
  have h2 : sqlCard (dataOf N page sql i) = .ok (if sql ≠ [] then [.sql sql] else []) := by
    unfold sqlCard dataOf
    cases sql <;> rfl
  have h3 : explainCard page (dataOf N page sql i) = .ok (if i.nodes ≠ [] then
      [.explain (mapL (nodeObj N page) i.nodes) (if page = .mysql then [] else i.summary)] else []) := by
    unfold explainCard dataOf
    rw [nodes_truthy]
    by_cases hn : i.nodes ≠ []
    · rw [if_pos (by simpa using hn), if_pos hn, read_nodes page _ hn]
      cases page <;> rfl
    · rw [if_neg (by simpa using hn), if_neg hn]
  have h4 : timelineCard (dataOf N page sql i) = .ok (if i.nodes ≠ [] then
      [.timeline (mapL (nodeObj N page) i.nodes)] else []) := by
    unfold timelineCard dataOf
    rw [nodes_truthy]
    by_cases hn : i.nodes ≠ []
    · rw [if_pos (by simpa using hn), if_pos hn, read_nodes page _ hn]
      rfl
    · rw [if_neg (by simpa using hn), if_neg hn]
  have h5 : suggestionCard page (dataOf N page sql i) = .ok (if page = .postgres ∧ i.targets = [] then [] else
      [.suggestion (i.targets.map describe)
        (Client.Shell.examineCommand (subCommand page) (i.options.map clientOption) i.targets)]) := by
    have e1 := mapM_back targetVal readTarget i.targets fun it h => read_target it (ht it h)
    have e2 := mapM_back' optionVal clientOption readOption i.options fun o _ => read_option o
    unfold suggestionCard dataOf
    by_cases hp : page = .postgres ∧ i.targets = []
    · simp only [if_pos hp]
    · simp only [if_neg hp, e1, e2]
      rfl
  unfold render
  rw [h1, h2, h3, h4, h5]
  rfl

theorem cards_shown (hN : N.Ok) (L : Libs) (page : Page) (i : Input F) (sql : Str)
    (ht : ∀ it ∈ i.targets, it.columns ≠ [])
    (hr : ∀ x, i.result = some x → Showable x) :
    render N L page (dataOf N page sql i) = .ok (Expected N L page sql i) := by
  have h6 : examinationCard N L page (dataOf N page sql i) = .ok (match i.result with
      | none => []
      | some r => [.examination r.origMillis (tableRows page L.sort r)]) := by
    unfold examinationCard dataOf
    cases hx : i.result with
    | none => rfl
    | some x =>
      rw [resultJs]
      obtain ⟨hx1, hx2, hx3, hx4⟩ := hr x hx
      have e : (appended (x.indexResults.map (indexResultVal N))) = .arr (x.indexResults.map (indexResultVal N)) := by
        unfold appended; rw [if_neg (by simpa using hx1)]
      have e1 := mapM_back (indexResultVal N) (readIndexResult N) x.indexResults
        fun y hy => read_index_result hN y (hx2 y hy) (hx4 y hy)
      simp only []
      rw [if_pos (show (Js.val (resultVal N (some x))).truthy = true from rfl), resultVal, get_struct, get_struct]
      simp only [mapGet, bind, Except.bind, reduceCtorEq, if_true, if_false, e, items_arr, e1, Js.integer,
        hN.read _ hx3]
      rfl
  rw [cards_before L page i sql ht, h6]
  unfold Expected Before
  by_cases hn : i.nodes ≠ []
  · simp only [if_pos hn, bind, Except.bind, pure, Except.pure, List.append_assoc, List.cons_append, List.nil_append]
  · simp only [if_neg hn, bind, Except.bind, pure, Except.pure, List.append_assoc, List.nil_append]

theorem app_suggest (L : Libs) (page : Page) (i : Input F) :
    app N L (suggestVal N page i) = (do
      let d ← newData L page (.val (dataVal N page i))
      let cs ← render N L page d
      return .suggest page cs) := by
  have hnull : ∀ p, newPart L p (.val .null) = .ok none := fun p => rfl
  have hpart : ∀ fs, (Js.val (struct fs)).truthy = true := fun fs => rfl
  unfold app suggestVal dataVal
  cases page <;>
  simp only [get_struct, mapGet, bind, Except.bind, reduceCtorEq, if_true, if_false, hpart, suggestPage, hnull]
  · rw [newPart, if_pos (hpart _)]
    simp only [reduceCtorEq, if_false, bind, Except.bind]
    cases newData L Page.mysql (Js.val (struct (commonFields N Page.mysql i))) <;> rfl
  · rw [newPart, if_pos (hpart _)]
    simp only [reduceCtorEq, if_false, bind, Except.bind]
    cases newData L Page.postgres (Js.val (struct (commonFields N Page.postgres i))) <;> rfl
  · rw [newPart, if_pos (hpart _)]
    simp only [if_true, bind, Except.bind, get_struct, mapGet]
    cases newData L Page.hasura _ <;> rfl

/-! ## C87 -/

/-- C87: if what was examined is not empty, opening the file shows the page of the command, with a card for each part
of the run: the query, the nodes of the plan with their values and shape, the suggested indexes with the command that
examines them, and the examination with its times.  Full claim: also if there was nothing to examine, which
`C87_blank` refutes. -/
theorem C87_shown_partial (hN : N.Ok) (L : Libs) (page : Page) (i : Input F) (sql style script : Str)
    (hv : Sound i.vars ∧ finite i.vars = true) (hq : QueryShown L page i.query sql)
    (ht : ∀ it ∈ i.targets, it.columns ≠ [])
    (hr : ∀ x, i.result = some x → Showable x) :
    openPage N L (pageText (suggestVal N page i) style script) = .ok (.suggest page (Expected N L page sql i)) := by
  have hg := good_suggest hN page i hv
  rw [openPage, C86_reads_back_partial _ hg.1 hg.2]
  simp only []
  rw [app_suggest, new_data L page i sql hq (create_result page i.result fun x hx => (hr x hx).some)]
  simp only [bind, Except.bind, cards_shown hN L page i sql ht hr]
  rfl

/-- C87: if an examination had nothing to examine, opening the file shows nothing at all. -/
theorem C87_blank (hN : N.Ok) (L : Libs) (page : Page) (i : Input F) (style script : Str) (x : Result)
    (hv : Sound i.vars ∧ finite i.vars = true)
    (hx : i.result = some x) (he : x.indexResults = []) (ht : ∀ it ∈ i.targets, it.columns ≠ []) :
    openPage N L (pageText (suggestVal N page i) style script) = .error .typeError := by
  have hg := good_suggest hN page i hv
  rw [openPage, C86_reads_back_partial _ hg.1 hg.2]
  simp only []
  rw [app_suggest]
  by_cases hp : page = .mysql
  · subst hp
    rw [new_data L .mysql i i.query (by simp [QueryShown]) (by rw [hx]; rfl)]
    simp only [bind, Except.bind]
    rw [cards_before L .mysql i i.query ht, examinationCard]
    have e : (dataOf N .mysql i.query i).result = .val (resultVal N (some x)) := by rw [dataOf, hx]; rfl
    rw [e, if_pos (show (Js.val (resultVal N (some x))).truthy = true from rfl), resultVal, get_struct, he]
    rfl
  · have hc := create_result_null (N := N) page hp x he
    have ht' := opt_targets page i.targets
    have hn : newData L page (.val (dataVal N page i)) = .error .typeError := by
      unfold newData dataVal commonFields
      cases page <;>
      simp only [reduceCtorEq, if_true, if_false, targetsVal, not_true_eq_false] at hp hc ht' ⊢ <;>
      simp only [get_struct, List.cons_append, List.nil_append, List.append_nil, mapGet, bind, Except.bind,
        reduceCtorEq, if_true, if_false, ht', hx, hc, optItems_arr]
    rw [hn]
    rfl

/-- C87: without suggestions the pages for MySQL and Hasura still announce indexes: a list without entries and a command
with the index left open.  The page for PostgreSQL does not. -/
theorem C87_no_suggestions (L : Libs) (page : Page) (i : Input F) (sql : Str) (h : i.targets = []) :
    (∃ cmd, Card.suggestion [] cmd ∈ Expected N L page sql i) ↔ page ≠ .postgres := by
  unfold Expected
  constructor
  · rintro ⟨cmd, hc⟩ rfl
    simp only [List.mem_append, h, and_self, if_true, List.not_mem_nil, or_false] at hc
    rcases hc with ((hc | hc) | hc) | hc
    · split at hc <;> simp at hc
    · split at hc <;> simp at hc
    · split at hc <;> simp at hc
    · split at hc <;> simp at hc
  · intro hp
    refine ⟨Client.Shell.examineCommand (subCommand page) (i.options.map clientOption) [], ?_⟩
    simp only [List.mem_append]
    refine .inl (.inr ?_)
    rw [if_neg (fun hh => hp hh.1), h]
    exact List.mem_singleton.2 rfl

theorem get_nodeObj (page : Page) (d : VmNode F) (k : Key) :
    mapGet k.str (nodeObj N page d) = mapGet k (nodeFields N page d) := by
  unfold nodeObj
  induction nodeFields N page d with
  | nil => rfl
  | cons p fs ih =>
    rw [List.map_cons, mapGet, mapGet, ih]
    by_cases h : k = p.1
    · rw [if_pos h, if_pos (by rw [h])]
    · rw [if_neg h, if_neg (fun e => h (str_inj e))]

/-- C87: each property of a node on the page has the value of the plan; a value that the plan does not give is `null`. -/
theorem C87_node_values (page : Page) (d : VmNode F) (g : Key → Option Val)
    (hg : g = fun k => mapGet k.str (nodeObj N page d)) :
    g .text = some (.str d.text) ∧ g .title = some (.str d.title) ∧ g .tableName = some (.str d.tableName) ∧
    (∀ k x, (k, x) ∈ [(Key.estimatedInitCost, d.estimatedInitCost), (.estimatedCost, d.estimatedCost),
        (.actualTimeFirstRow, d.actualTimeFirstRow), (.actualTimeAvg, d.actualTimeAvg)] →
      g k = some (match x with | none => .null | some x => .num (N.float x))) ∧
    (∀ k x, (k, x) ∈ [(Key.estimatedReturnedRows, d.estimatedReturnedRows),
        (.actualReturnedRows, d.actualReturnedRows), (.actualLoopCount, d.actualLoopCount)] →
      g k = some (match x with | none => .null | some n => .num (some (N.int n)))) ∧
    (page ≠ .mysql → g .estimatedWidth = some (match d.estimatedWidth with
      | none => .null
      | some n => .num (some (N.int n)))) := by
  have hf : ∀ x : Option F, nullFloat N x = (match x with | none => .null | some x => .num (N.float x)) := by
    intro x; cases x <;> rfl
  have hi : ∀ x : Option Int, nullInt N x = (match x with | none => .null | some n => .num (some (N.int n))) := by
    intro x; cases x <;> rfl
  subst hg
  simp only [get_nodeObj, ← hf, ← hi]
  unfold nodeFields
  cases page <;>
    simp only [List.mem_cons, List.not_mem_nil, or_false, Prod.mk.injEq] <;>
    refine ⟨rfl, rfl, rfl, ?_, ?_, ?_⟩ <;>
    first
      | (rintro k x (⟨rfl, rfl⟩ | ⟨rfl, rfl⟩ | ⟨rfl, rfl⟩ | ⟨rfl, rfl⟩) <;> rfl)
      | (rintro k x (⟨rfl, rfl⟩ | ⟨rfl, rfl⟩ | ⟨rfl, rfl⟩) <;> rfl)
      | (intro _; rfl)
      | (intro h; exact absurd rfl h)

/-! ### The commands -/

/-- what the command hands to the page for a report (`/repo/cmd/db/suggest/mysql.go:113-137`, `postgres.go:112-142`) -/
def inputOf {T : Type} (nodes : T → List (Tree (VmNode F))) (summary : T → Str) (r : Cmd.Report T) : Input F where
  query := r.query
  nodes := nodes r.tree
  summary := summary r.tree
  targets := r.targets
  options := r.options
  result := r.result
  gql := []
  vars := .null

theorem parsed_columns : ∀ (texts : List Str) (given : List IndexTarget),
    newIndexTargetsFromTexts texts = .ok given → ∀ it ∈ given, it.columns ≠ []
  | [], given, h => by
    rw [newIndexTargetsFromTexts] at h
    cases h
    simp
  | t :: ts, given, h => by
    rw [newIndexTargetsFromTexts] at h
    cases h1 : newIndexTargetFromText t with
    | error e => rw [h1] at h; cases h
    | ok it =>
      cases h2 : newIndexTargetsFromTexts ts with
      | error e => rw [h1, h2] at h; cases h
      | ok its =>
        rw [h1, h2] at h
        cases h
        intro x hx
        rw [List.mem_cons] at hx
        rcases hx with rfl | hx
        · exact (C01_parse_sound t x h1).2.1
        · exact parsed_columns ts its h2 x hx

theorem chosen_columns {given its ts : List IndexTarget} (hc : Cmd.Chosen given its ts)
    (h1 : ∀ it ∈ given, it.columns ≠ []) (h2 : ∀ it ∈ its, it.columns ≠ []) : ∀ it ∈ ts, it.columns ≠ [] := by
  by_cases hg : given = []
  · rw [hc.2 hg]
    intro it hit
    exact h2 it (List.mem_of_mem_filter hit)
  · rw [hc.1 hg]
    exact h1

/-- C87: a report that `suggest mysql` or `suggest postgres` writes shows, when opened, the query, the plan, the
suggestions and the examination of the run, unless the run examined nothing. -/
theorem C87_command_partial {T : Type} (hN : N.Ok) (L : Libs) (page : Page) (hp : page ≠ .hasura) (pre : Str)
    (w : Cmd.World T) (o : Cmd.Options) (p style script : Str) (r : Cmd.Report T)
    (nodes : T → List (Tree (VmNode F))) (summary : T → Str)
    (hw : Cmd.Effect.html p r ∈ (Cmd.suggestSql pre w o).2) (ht : ∀ it ∈ r.targets, it.columns ≠ [])
    (hm : ∀ x, r.result = some x → Exact x.origMillis ∧ ∀ y ∈ x.indexResults, Exact y.millis)
    (hi : o.indexTargets ≠ [] ∨ r.targets.filter (·.isSafe) ≠ [] ∨ o.runsExamination = false) :
    openPage N L (pageText (suggestVal N page (inputOf nodes summary r)) style script) =
      .ok (.suggest page (Expected N L page o.query
        { query := r.query, nodes := nodes r.tree, summary := summary r.tree, targets := r.targets,
          options := r.options, result := r.result, gql := [], vars := .null })) := by
  obtain ⟨-, -, -, h2, -, -, h3, h4⟩ := Cmd.C42_report pre w o p r hw
  refine C87_shown_partial hN L page _ o.query style script ⟨by simp [inputOf, Sound], rfl⟩
    (by rw [QueryShown, if_neg hp]; exact h2.symm) ht ?_
  intro x hx
  change r.result = some x at hx
  by_cases he : o.runsExamination = true
  · obtain ⟨given, ts, er, h5, h6, h7, h8⟩ := h4 he
    have e : x = er := by rw [h8] at hx; exact (Option.some.inj hx).symm
    subst e
    obtain ⟨h9, -⟩ := C09_result_faithful _ _ _ _ h7
    have hcol := chosen_columns h6 (parsed_columns _ _ h5) ht
    refine ⟨?_, ?_, hm x hx⟩
    · intro hnil
      rw [hnil] at h9
      have hts : ts = [] := by simpa using h9.symm
      have hg : given = [] := by
        by_contra hg
        exact hg (h6.1 hg ▸ hts)
      have hf := h6.2 hg
      rcases hi with hi | hi | hi
      · cases ho : o.indexTargets with
        | nil => exact hi ho
        | cons a l =>
          rw [ho, newIndexTargetsFromTexts, hg] at h5
          cases e1 : newIndexTargetFromText a with
          | error e => rw [e1] at h5; cases h5
          | ok it =>
            cases e2 : newIndexTargetsFromTexts l with
            | error e => rw [e1, e2] at h5; cases h5
            | ok its => rw [e1, e2] at h5; cases h5
      · exact hi (hf ▸ hts)
      · rw [hi] at he; cases he
    · intro y hy
      exact hcol y.target (h9 ▸ List.mem_map_of_mem hy)
  · rw [h3 (by simpa using he)] at hx
    cases hx

/-- C87: `suggest mysql` or `suggest postgres` with `--with-examine`, without `-i`, on a query for which no index can be
examined (all the query could use exist): the command ends without an error, and the file it writes shows nothing. -/
theorem C87_examine_nothing {T : Type} (hN : N.Ok) (L : Libs) (page : Page) (pre : Str) (w : Cmd.World T)
    (o : Cmd.Options) (p style script : Str) (r : Cmd.Report T) (nodes : T → List (Tree (VmNode F))) (summary : T → Str)
    (hw : Cmd.Effect.html p r ∈ (Cmd.suggestSql pre w o).2) (ht : ∀ it ∈ r.targets, it.columns ≠ [])
    (hx : o.runsExamination = true) (hi : o.indexTargets = []) (hs : r.targets.filter (·.isSafe) = []) :
    (Cmd.suggestSql pre w o).1 = .ok () ∧
    openPage N L (pageText (suggestVal N page (inputOf nodes summary r)) style script) = .error .typeError := by
  obtain ⟨-, -, h1, h2, -, -, -, h4⟩ := Cmd.C42_report pre w o p r hw
  refine ⟨h1, ?_⟩
  obtain ⟨given, ts, er, h5, h6, h7, h8⟩ := h4 hx
  rw [hi] at h5
  cases h5
  rw [h6.2 rfl, hs] at h7
  obtain ⟨h9, -⟩ := C09_result_faithful _ _ _ _ h7
  refine C87_blank hN L page _ style script er ⟨by simp [inputOf, Sound], rfl⟩ h8 (by simpa using h9) ht

/-! ## Cases -/

/-- reading decimal digits, the last first -/
def readDigits : Str → Nat
  | [] => 0
  | c :: cs => (c.toNat - 48) + 10 * readDigits cs
/-- decimal numbers with a sign; the floats of the cases are whole -/
def exNums : Nums Nat where
  int n := if n < 0 then '-' :: dec n.natAbs else dec n.natAbs
  float x := some (dec x)
  readInt
    | '-' :: cs => some (-(readDigits cs.reverse : Int))
    | cs => some (readDigits cs.reverse : Int)

theorem readDigits_dec (n : Nat) : readDigits (dec n).reverse = n := by
  induction n using Nat.strongRecOn with
  | ind n ih =>
    have hd : (digitChar n).toNat - 48 = n % 10 := by
      have : n % 10 < 10 := Nat.mod_lt _ (by decide)
      unfold digitChar
      generalize n % 10 = m at this
      revert m
      decide
    by_cases h : n < 10
    · rw [dec_lt h, List.reverse_singleton, readDigits, readDigits, hd]; omega
    · rw [dec_ge h, List.reverse_append, List.reverse_singleton, List.singleton_append, readDigits, hd, ih (n / 10) (by omega)]
      omega

theorem num_digit : ∀ c ∈ ['0','1','2','3','4','5','6','7','8','9'], isNumChar c = true := by decide

theorem exNums_ok : exNums.Ok where
  int n := by
    have h1 : ∀ c ∈ dec n.natAbs, isNumChar c = true := by
      intro c hc
      exact num_digit c (dec_digits _ c hc)
    unfold exNums
    simp only []
    split
    · refine ⟨by simp, ?_⟩
      intro c hc
      rw [List.mem_cons] at hc
      rcases hc with rfl | hc
      · decide
      · exact h1 c hc
    · exact ⟨dec_ne_nil _, h1⟩
  float x := by
    refine ⟨dec x, rfl, dec_ne_nil x, ?_⟩
    intro c hc
    exact num_digit c (dec_digits _ c hc)
  read n _ := by
    unfold exNums
    simp only []
    by_cases h : n < 0
    · rw [if_pos h]
      simp only [readDigits_dec]
      congr 1; omega
    · rw [if_neg h]
      have h2 : ∀ cs, dec n.natAbs ≠ '-' :: cs := by
        intro cs e
        have := dec_digits n.natAbs '-' (by rw [e]; exact List.mem_cons_self ..)
        revert this
        decide
      split
      · next cs e => exact absurd e (h2 cs)
      · rw [readDigits_dec]; congr 1; omega

def exTarget : IndexTarget := ⟨['t'], [⟨['a']⟩, ⟨['b']⟩]⟩
def exNode (text : Str) : VmNode Nat := ⟨text, text, ['t'], some 0, some 12, some 3, none, none, none, none, some 1⟩
/-- a plan of three nodes, one suggestion, and an examination with two indexes -/
def exInput (r : List IndexResult) : Input Nat where
  query := ['s', '<', '"']
  nodes := [.node (exNode ['x']) [.node (exNode ['y']) [], .node (exNode ['z']) []]]
  summary := ['m']
  targets := [exTarget]
  options := [⟨true, ['o'], ['f']⟩]
  result := some ⟨70, r⟩
  gql := []
  vars := .null
def exLibs : Libs := ⟨.ok, List.mergeSort (le := fun a b => a.millis ≤ b.millis)⟩

example (page : Page) : Showable ⟨70, [⟨exTarget, 60⟩, ⟨exTarget, 20⟩]⟩ ∧
    QueryShown exLibs page (exInput []).query (exInput []).query ∧
    (Sound (exInput []).vars ∧ finite (exInput []).vars = true) ∧ ∀ it ∈ (exInput []).targets, it.columns ≠ [] := by
  refine ⟨⟨by simp, by simp [exTarget], by decide, by simp [Exact]⟩, ?_, ⟨by simp [exInput, Sound], rfl⟩,
    by simp [exInput, exTarget]⟩
  cases page <;> rfl

/-- on these the page has five cards for PostgreSQL, in the text of a file without style and script -/
example : ∃ a b c d e, openPage exNums exLibs
    (pageText (suggestVal exNums .postgres (exInput [⟨exTarget, 60⟩, ⟨exTarget, 20⟩])) [] []) =
      .ok (.suggest .postgres [.sql a, .explain b ['m'], .timeline b, .suggestion [c] d, .examination 70 e]) := by
  refine ⟨_, _, _, _, _, C87_shown_partial exNums_ok exLibs .postgres (exInput _) ['s', '<', '"'] [] []
    ⟨by simp [exInput, Sound], rfl⟩ rfl (by simp [exInput, exTarget]) ?_⟩
  intro x hx
  cases hx
  exact ⟨by simp, by simp [exTarget], by decide, by simp [Exact]⟩

/-- a run that writes a report although it has nothing to examine -/
def exWorld : Cmd.World Unit :=
  ⟨fun _ => .ok (), fun _ => .ok [], ⟨fun l _ => .ok l.length, fun _ => 0⟩, 7, fun _ _ => .ok ()⟩

example : ((Cmd.suggestSql Cmd.pgPre exWorld ⟨true, [], ['q'], ['f']⟩).2.filterMap fun
    | .html _ r => some r.targets
    | _ => none) = [[]] := by decide +kernel

end Verif.Report
