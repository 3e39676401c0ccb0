import Verif.MyScope.Ast
import Verif.Fields.Uses
import Verif.Schemas.Model
/-!
# The MySQL collectors

`/repo/database/mysql/mservice/parser/collect_table_names.go`, `collect_stmt_scopes.go` and `index.go`.

`norm` is the lower-case form of a `model.CIStr` (left abstract).
-/
namespace Verif.MyScope
open Verif.Index Verif.Builder Verif.Fields Verif.Lib

/-- `dparser.RootScopeName`, `/repo/database/dservice/dparser/stmt_scope.go:5` -/
@[irreducible] def rootName : Str := "<root>".toList

/-- The errors, by message. -/
inductive Err where
  | union
  | onlySelect
  | explicitDatabase
  | unexpectedChild
  | window
  | values
  | withClause
  | unsupportedExpr
  | tableSource
  | tableReference
deriving DecidableEq, Repr

/-! ## Table names -/

/-- `collect_table_names.go:10-14`; of a table only the name is used. -/
structure TSt where
  tables : List Str := []
  errors : List Err := []
  cteTables : List (List Str) := []
deriving DecidableEq, Repr

/-- `collect_table_names.go:61-71` `pushCteTables` -/
def pushCte (norm : Str → Str) (w : Option (List Cte)) (st : TSt) : TSt :=
  match w with
  | none => st
  | some cs => { st with cteTables := st.cteTables ++ [cs.map fun c => norm c.name] }

/-- `collect_table_names.go:73-79` `popCteTables`; slicing an empty list panics (`none`). -/
def popCte (w : Option (List Cte)) (st : TSt) : Option TSt :=
  match w with
  | none => some st
  | some _ =>
    if st.cteTables = [] then none
    else some { st with cteTables := st.cteTables.dropLast }

/-- `collect_table_names.go:81-90` `isCteTable` -/
def isCteTable (st : TSt) (n : Str) : Bool := st.cteTables.any fun cs => cs.any (· = n)

/-- `collect_table_names.go:92-117` `addTableIfNotDerived` -/
def addTable (norm : Str → Str) (src : Src) (st : TSt) : TSt :=
  match src with
  | .table schema name =>
    if schema ≠ [] then { st with errors := st.errors ++ [.explicitDatabase] }
    else if isCteTable st (norm name) then st
    else { st with tables := st.tables ++ [norm name] }
  | .select _ => st
  | .setOpr _ => { st with errors := st.errors ++ [.union] }
  | .join _ => { st with errors := st.errors ++ [.unexpectedChild] }
  | .other => { st with errors := st.errors ++ [.unexpectedChild] }

/-- `collect_table_names.go:43-59` `Enter`, `Leave`, for one call. -/
def tableStep (norm : Str → Str) (st : TSt) : Ev → Option TSt
  | .enter s => some (pushCte norm s.with_ st)
  | .leave s => popCte s.with_ st
  | .source src _ => some (addTable norm src st)

/-- The calls one after the other. -/
def runTables (norm : Str → Str) (evs : List Ev) (st : TSt) : Option TSt :=
  evs.foldlM (tableStep norm) st

/-- `collect_table_names.go:21-41` `CollectTableNames`; `ord` is the iteration order of `Set.Values`.
`none` is a panic. -/
def collectTableNames (norm : Str → Str) (ord : List Str → List Str) :
    Stmt → Option (Except (List Err) (List Str))
  | .setOpr => some (.error [.union])
  | .other => some (.error [.onlySelect])
  | .select s =>
    match runTables norm (walkS s) {} with
    | none => none
    | some st => if st.errors ≠ [] then some (.error st.errors) else some (.ok (ord (uniq st.tables)))

/-! ## Scopes -/

/-- `collect_stmt_scopes.go:12-18` `scopeCollector`.  `scopeStack` is left out: it is only pushed to and
popped from, and popping an empty stack is harmless (`/repo/lib/stack.go:15-22`). -/
structure St where
  scopes : List Scope := []
  errors : List Err := []
  lastError : Option Err := none

/-- what a collection returns: the result and the pending error -/
abbrev Cols := List FieldColumn × Option Err

/-- one collection after the other -/
def andThen (r : Cols) (f : Option Err → Cols) : Cols := (r.1 ++ (f r.2).1, (f r.2).2)

mutual

/-- `collect_stmt_scopes.go:172-300` `collectExprReferences` -/
def collectE (norm : Str → Str) (ty : FieldType) : Expr → Option Err → Cols
  | .nil, le => ([], le)
  | .const, le => ([], le)
  | .refused _, _ => ([], some .unsupportedExpr)
  | .node kids _, le => collectEs norm ty kids le
  | .column _ t n, le => ([{ table := norm t, name := norm n, type := ty }], le)
  | .matchAgainst cs against, le =>
    andThen (collectE norm ty against le) fun le =>
      (cs.map fun c => { table := norm c.1, name := norm c.2, type := ty }, le)
  | .subquery _, le => ([{ table := [], name := [], type := .subquery }], le)

/-- a loop over expressions -/
def collectEs (norm : Str → Str) (ty : FieldType) : List Expr → Option Err → Cols
  | [], le => ([], le)
  | e :: es, le => andThen (collectE norm ty e le) fun le => collectEs norm ty es le

end

/-- what a collection of tables returns -/
abbrev Tabs := List Table × List Field × Option Err

mutual

/-- `collect_stmt_scopes.go:312-350` `collectReferencingTables` -/
def collectR (norm : Str → Str) : Ref → Option Err → Tabs
  | .nil, le => ([], [], le)
  | .source (.table schema name) as, le =>
    if schema ≠ [] then ([], [], some .explicitDatabase)
    else ([{ asName := norm as, name := norm name }], [], le)
  | .source (.select _) as, le => ([{ asName := norm as, name := [] }], [], le)
  | .source (.setOpr _) _, _ => ([], [], some .union)
  | .source (.join j) _, le => collectJ norm j le
  | .source .other _, _ => ([], [], some .tableSource)
  | .join j, le => collectJ norm j le
  | .other, _ => ([], [], some .tableReference)

/-- `collect_stmt_scopes.go:352-367` `collectJoinReferences` -/
def collectJ (norm : Str → Str) : Join → Option Err → Tabs
  | .mk l r on _, le =>
    let a := collectR norm l le
    let b := collectR norm r a.2.2
    match on with
    | none => (a.1 ++ b.1, a.2.1 ++ b.2.1, b.2.2)
    | some e =>
      let c := collectE norm .condition e b.2.2
      (a.1 ++ b.1, a.2.1 ++ b.2.1 ++ [{ columns := c.1 }], c.2)

end

/-- fields found and the new state -/
abbrev Found := List Field × St

/-- one part after the other -/
def thenFound (r : Found) (f : St → Found) : Found := (r.1 ++ (f r.2).1, (f r.2).2)

/-- `getAndClearLastError` (157-161) after a collection that gives one field (48-52,60-63,163-170 with the
callers of `createFieldFromExpr`): the field is kept unless an error is pending, which is recorded. -/
def foundE (norm : Str → Str) (ty : FieldType) (as : Str) (e : Expr) (st : St) : Found :=
  match (collectE norm ty e st.lastError).2 with
  | some x => ([], { st with lastError := none, errors := st.errors ++ [x] })
  | none => ([⟨as, (collectE norm ty e st.lastError).1⟩], { st with lastError := none })

/-- `collect_stmt_scopes.go:45-64`; a star has no `AsName`. -/
def foundFs (norm : Str → Str) : List SelField → St → Found
  | [], st => ([], st)
  | .expr e as :: fs, st =>
    thenFound (foundE norm .reference (norm as) e st) fun st => foundFs norm fs st
  | .star t :: fs, st =>
    thenFound ([⟨[], [{ table := norm t, name := [], type := .star }]⟩], st)
      fun st => foundFs norm fs st

/-- `collect_stmt_scopes.go:82-91,103-112` -/
def foundEs (norm : Str → Str) : List Expr → St → Found
  | [], st => ([], st)
  | e :: es, st => thenFound (foundE norm .reference [] e st) fun st => foundEs norm es st

/-- `collect_stmt_scopes.go:74-81,92-99` -/
def foundO (norm : Str → Str) (ty : FieldType) : Option Expr → St → Found
  | none, st => ([], st)
  | some e, st => foundE norm ty [] e st

/-- `collect_stmt_scopes.go:65-69,72`: the fields of FROM. -/
def foundFrom (norm : Str → Str) : Option Join → St → Found
  | none, st => ([], st)
  | some j, st =>
    let r := collectJ norm j st.lastError
    (r.2.1, match r.2.2 with
      | some x => { st with lastError := none, errors := st.errors ++ [x] }
      | none => { st with lastError := none })

/-- `collect_stmt_scopes.go:66,71`: the tables of FROM; they do not depend on the pending error. -/
def fromTables (norm : Str → Str) : Option Join → List Table
  | none => []
  | some j => (collectJ norm j none).1

/-- `collect_stmt_scopes.go:100-102` -/
def foundWindow (windows : Option (List Expr)) (st : St) : Found :=
  ([], if windows.isSome then { st with errors := st.errors ++ [.window] } else st)

/-- `collect_stmt_scopes.go:113-127` -/
def foundLimit (norm : Str → Str) : Limit → St → Found
  | .none, st => ([], st)
  | .mk count offset, st =>
    thenFound (foundE norm .reference [] count st) fun st => foundE norm .reference [] offset st

/-- `collect_stmt_scopes.go:128-133` -/
def lateErrors (values : Bool) (w : Option (List Cte)) (st : St) : St :=
  let st := if values then { st with lastError := some .values } else st
  if w.isSome then { st with lastError := some .withClause } else st

/-- `collect_stmt_scopes.go:45-127`: the fields of all clauses. -/
def foundAll (norm : Str → Str) : Select → St → Found
  | .mk _ _ fields from_ where_ groupBy having _ windows orderBy limit, st =>
    thenFound (foundFs norm fields st) fun st =>
    thenFound (foundFrom norm from_ st) fun st =>
    thenFound (foundO norm .condition where_ st) fun st =>
    thenFound (foundEs norm groupBy st) fun st =>
    thenFound (foundO norm .reference having st) fun st =>
    thenFound (foundWindow windows st) fun st =>
    thenFound (foundEs norm orderBy st) fun st =>
    foundLimit norm limit st

/-- `collect_stmt_scopes.go:37-147` `Enter` for a `*ast.SelectStmt`. -/
def enter (norm : Str → Str) (s : Select) (st : St) : St :=
  match s with
  | .mk values w _ from_ _ _ _ _ _ _ _ =>
    let r := foundAll norm s st
    let scope : Scope := .mk rootName (r.1.filter (·.columns ≠ [])) [] (fromTables norm from_) []
    let st' := lateErrors values w r.2
    { st' with scopes := if st'.scopes = [] then [scope] else st'.scopes }

/-- `collect_stmt_scopes.go:37-41,149-155`, one call. -/
def scopeStep (norm : Str → Str) (st : St) : Ev → St
  | .enter s => enter norm s st
  | .leave _ => st
  | .source _ _ => st

/-- `collect_stmt_scopes.go:20-35` `CollectStmtScopes` -/
def collectStmtScopes (norm : Str → Str) : Stmt → Except (List Err) (List Scope)
  | .setOpr => .error [.union]
  | .other => .error [.onlySelect]
  | .select s =>
    let st := (walkS s).foldl (scopeStep norm) {}
    if st.errors ≠ [] then .error st.errors else .ok st.scopes

/-! ## Listing -/

/-- What Go leaves open: the order of sets and maps, and how ties are sorted. -/
structure Orders where
  names : List Str → List Str
  set : Order
  key : KeyOrder
  entry : EntryOrder
  sort : List IndexTargetTable → List IndexTargetTable

/-- Sets and maps are iterated completely and sorting sorts. -/
structure Orders.Ok (o : Orders) : Prop where
  names : ∀ l, (o.names l).Perm l
  choices : Choices o.set o.key o.entry o.sort

/-- Errors of `ListPossibleIndexes`. -/
inductive IndexErr (ε : Type) where
  | query (es : List Err)
  | schemas (e : Schemas.Err ε)
  | build (e : BuildErr Fields.Err)

/-- `/repo/database/mysql/mservice/parser/index.go:10-32` `ListPossibleIndexes`.  `cols` is
`GetTableColumns` for the database given, `f` what is read of its rows
(`collect_table_schemas.go:17-19`); `none` is a crash. -/
def listPossibleIndexes {ε T : Type} (o : Orders) (norm : Str → Str)
    (cols : List Str → Except ε (List T)) (f : T → Name × Name × Bool) (stmt : Stmt) :
    Option (Except (IndexErr ε) (List IndexTarget)) :=
  match collectTableNames norm o.names stmt with
  | none => none
  | some (.error es) => some (.error (.query es))
  | some (.ok names) =>
    match Schemas.collectTableSchemas (cols names) f names with
    | .error .panic => none
    | .error e => some (.error (.schemas e))
    | .ok schemas =>
      match collectStmtScopes norm stmt with
      | .error es => some (.error (.query es))
      | .ok scopes =>
        match suggest o.set o.key o.entry o.sort schemas scopes with
        | .error (.fields .panic) => none
        | .error e => some (.error (.build e))
        | .ok its => some (.ok its)

end Verif.MyScope
