import Verif.PgScope.Ast
import Verif.Dec
import Verif.Lib.Map
/-!
# The PostgreSQL collectors

`/repo/database/postgres/pservice/parser/collect_table_names.go` and `collect_stmt_scopes.go`.

`norm` is `tree.Name.Normalize` of the parser library (left abstract).
-/
namespace Verif.PgScope
open Verif.Builder Verif.Fields Verif.Lib

/-- The literals compared with or produced by the collectors. -/
@[irreducible] def public_ : Str := "public".toList
/-- `dparser.RootScopeName`, `/repo/database/dservice/dparser/stmt_scope.go:5` -/
@[irreducible] def rootName : Str := "<root>".toList
/-- prefix of the names of subqueries in expressions -/
@[irreducible] def fieldPrefix : Str := "field".toList
/-- prefix of the names of subqueries in FROM -/
@[irreducible] def selectPrefix : Str := "select".toList

/-- The errors, by message. -/
inductive Err where
  | onlySelect
  | unknownNode
  | explicitSchema
  | window
  | withClause
  | unsupportedExpr
  | schemaInTuple
  | subqueryShape
  | statementSource
  | nestedAs
  | tableRef
  | fromItem
  | naturalJoin
deriving DecidableEq, Repr

/-- What can happen besides returning: a nil dereference (or slice out of range), or the given bound on
nested calls is exhausted. -/
inductive Fail where
  | panic
  | fuel
deriving DecidableEq, Repr

/-- `parser.Statement.AST` -/
inductive Stmt where
  | select (s : Select)
  | other

/-! ## Table names -/

/-- `collect_table_names.go:11-15` with the walker's `UnknownNodes`. -/
structure TSt where
  tables : List (Str × Str) := []
  errors : List Err := []
  cteTables : List (List Str) := []
  unknown : List Err := []
deriving DecidableEq, Repr

/-- `collect_table_names.go:70-80` `pushCteTables` -/
def pushCte (norm : Str → Str) (w : Option (List Cte)) (st : TSt) : TSt :=
  match w with
  | none => st
  | some cs => { st with cteTables := st.cteTables ++ [cs.map fun c => norm c.name] }

/-- `collect_table_names.go:82-88` `popCteTables`; slicing an empty list panics. -/
def popCte (w : Option (List Cte)) (st : TSt) : Except Fail TSt :=
  match w with
  | none => .ok st
  | some _ =>
    if st.cteTables = [] then .error .panic
    else .ok { st with cteTables := st.cteTables.dropLast }

/-- `collect_table_names.go:90-99` `isCteTable` -/
def isCteTable (st : TSt) (n : Str) : Bool := st.cteTables.any fun cs => cs.any (· = n)

/-- `collect_table_names.go:101-114` `addTableIfNotDerived` -/
def addTable (norm : Str → Str) (as catalog schema table : Str) (st : TSt) : TSt :=
  if (schema ≠ public_ ∧ schema ≠ []) ∨ catalog ≠ [] then
    { st with errors := st.errors ++ [.explicitSchema] }
  else if isCteTable st (norm table) then st
  else { st with tables := st.tables ++ [(table, as)] }

/-- `collect_table_names.go:49-68` `Enter`, `Leave`, for one call. -/
def tableStep (norm : Str → Str) (st : TSt) : Ev → Except Fail TSt
  | .enterSelect (.mk _ w _ _ _) => .ok (pushCte norm w st)
  | .leaveSelect (.mk _ w _ _ _) => popCte w st
  | .enterAliased (.tableName catalog schema table) as =>
    .ok (addTable norm as catalog schema table st)
  | .enterAliased _ _ => .ok st
  | .enterSubquery _ _ => .ok st
  | .leaveSubquery _ => .ok st
  | .plain => .ok st
  | .unknown => .ok { st with unknown := st.unknown ++ [.unknownNode] }

/-- The calls one after the other. -/
def runTables (norm : Str → Str) (evs : List Ev) (st : TSt) : Except Fail TSt :=
  evs.foldlM (tableStep norm) st

/-- `collect_table_names.go:22-47` `CollectTableNames`; `ord` is the iteration order of
`Set.Values` (`/repo/lib/set.go:33-40`). -/
def collectTableNames (norm : Str → Str) (ord : List Str → List Str) :
    Stmt → Except Fail (Except (List Err) (List Str))
  | .other => .ok (.error [.onlySelect])
  | .select s =>
    match runTables norm (walkS s) {} with
    | .error f => .error f
    | .ok st =>
      if st.unknown ≠ [] then .ok (.error st.unknown)
      else if st.errors ≠ [] then .ok (.error st.errors)
      else .ok (.ok (ord (uniq (st.tables.map fun t => norm t.1))))

/-! ## Scopes -/

/-- `dparser.StmtScope` as it is built, in memory: the subqueries are pointers. -/
structure Cell where
  name : Str
  fields : List Field := []
  fieldScopes : List Nat := []
  tables : List Table := []
  subScopes : List Nat := []
deriving DecidableEq, Repr

/-- The node of a `scopeInfo`: a `*tree.Select` or a `*tree.Subquery`. -/
inductive Node where
  | select (id : Nat)
  | subquery (id : Nat)
deriving DecidableEq, Repr

/-- `collect_stmt_scopes.go:31-34` `selectInfo`; a `*scopeInfo` is represented by the pointer to its
scope. -/
structure SelInfo where
  name : Str
  fieldOf : Option Nat := none
deriving DecidableEq, Repr

/-- `collect_stmt_scopes.go:13-24` `scopeCollector` with the memory of scopes and the walker's
`UnknownNodes`.  The top of `stack` is its head.  `counterF`, `counterS` are the two entries of
`foundSelectPrefixCounter`. -/
structure St where
  heap : List Cell := []
  scopes : List Nat := []
  errors : List Err := []
  stack : List (Node × Nat) := []
  lastError : Option Err := none
  infos : List (Nat × SelInfo) := []
  counterF : Nat := 0
  counterS : Nat := 0
  unknown : List Err := []
deriving DecidableEq, Repr

/-- `fmt.Sprintf("<%s%d>", prefix, cnt)` -/
def genName (prefix_ : Str) (n : Nat) : Str := '<' :: (prefix_ ++ dec n ++ ['>'])

/-- `collect_stmt_scopes.go:584-602` `newSelectInfo` with prefix `field`. -/
def newFieldInfo (body : Body) (fieldOf : Option Nat) (st : St) : Except Err (Str × St) :=
  match body with
  | .paren s =>
    .ok (genName fieldPrefix st.counterF,
      { st with counterF := st.counterF + 1,
                infos := Lib.mapSet s.id ⟨genName fieldPrefix st.counterF, fieldOf⟩ st.infos })
  | _ => .error .subqueryShape

/-- `collect_stmt_scopes.go:584-602` `newSelectInfo` with prefix `select`. -/
def newTableInfo (body : Body) (st : St) : Except Err (Str × St) :=
  match body with
  | .paren s =>
    .ok (genName selectPrefix st.counterS,
      { st with counterS := st.counterS + 1,
                infos := Lib.mapSet s.id ⟨genName selectPrefix st.counterS, none⟩ st.infos })
  | _ => .error .subqueryShape

/-- `uon.Parts[i]`: the parts array is padded with empty strings. -/
def part (parts : List Str) (i : Nat) : Str := parts.getD i []

/-- `collect_stmt_scopes.go:629-643` `isSchemaSpecified`, `isSchemaSpecified2` -/
def schemaSpecified (schema : Str) (parts : List Str) (pos : Nat) : Bool :=
  (parts.length = pos + 1 && part parts pos ≠ schema) || parts.length > pos + 1

/-- `collect_stmt_scopes.go:645-656` `isSchemaSpecifiedTableName` -/
def tableSchemaSpecified (norm : Str → Str) (schema catalog sName : Str) : Bool :=
  if catalog ≠ [] then true
  else if norm sName = [] ∨ norm sName = schema then false
  else true

/-- Result of a collection: columns and the new state. -/
abbrev Cols := Except Fail (List FieldColumn × St)

/-- The rest of a collection after the first part: append the columns. -/
def andThen (r : Cols) (f : St → Cols) : Cols :=
  match r with
  | .error e => .error e
  | .ok (a, st) =>
    match f st with
    | .error e => .error e
    | .ok (b, st') => .ok (a ++ b, st')

/-- Nothing collected. -/
def nothing (st : St) : Cols := .ok ([], st)

/-- `sc.lastError = e`, nothing collected. -/
def failWith (e : Err) (st : St) : Cols := .ok ([], { st with lastError := some e })

/-- `collect_stmt_scopes.go:414-423`: a star of a tuple whose operand is the given name. -/
def tupleStarName (schema : Str) (parts : List Str) (st : St) : Cols :=
  if schemaSpecified schema parts 1 then failWith .schemaInTuple st
  else .ok ([{ table := part parts 0, name := [], type := .star }], st)

/-- `collect_stmt_scopes.go:424-433`: a column of a tuple whose operand is the given name. -/
def columnAccessName (schema : Str) (parts : List Str) (col : Str) (ty : FieldType) (st : St) :
    Cols :=
  if schemaSpecified schema parts 1 then failWith .schemaInTuple st
  else .ok ([{ table := part parts 0, name := col, type := ty }], st)

/-- `collect_stmt_scopes.go:436-445` -/
def nameRefs (schema : Str) (parts : List Str) (star : Bool) (ty : FieldType) (st : St) : Cols :=
  if schemaSpecified schema parts 2 then failWith .explicitSchema st
  else if star then .ok ([{ table := part parts 1, name := [], type := .star }], st)
  else .ok ([{ table := part parts 1, name := part parts 0, type := ty }], st)

/-- `collect_stmt_scopes.go:252-265` -/
def subqueryRefs (body : Body) (st : St) : Cols :=
  match newFieldInfo body (st.stack.head?.map (·.2)) st with
  | .error e => failWith e st
  | .ok (n, st') => .ok ([{ referenceName := n, table := [], name := [], type := .subquery }], st')

/-- `collect_stmt_scopes.go:448-453` -/
def allColumnsRefs (schema : Str) (table : List Str) (st : St) : Cols :=
  if schemaSpecified schema table 1 then failWith .explicitSchema st
  else .ok ([{ table := part table 0, name := [], type := .star }], st)

/-- `collect_stmt_scopes.go:454-459`; no type is given, which is `FieldReference`, the zero value. -/
def columnItemRefs (norm : Str → Str) (schema : Str) (table : List Str) (col : Str) (st : St) :
    Cols :=
  if schemaSpecified schema table 1 then failWith .explicitSchema st
  else .ok ([{ table := part table 0, name := norm col, type := .reference }], st)

mutual

/-- `collect_stmt_scopes.go:230-473` `collectExprReferences` -/
def collectE (norm : Str → Str) (schema : Str) (ty : FieldType) : Expr → St → Cols
  | .nil, st => nothing st
  | .leaf _ ok, st => if ok then nothing st else failWith .unsupportedExpr st
  | .node _ kids, st => collectEs norm schema ty kids st
  | .case subject whens els, st =>
    andThen (collectE norm schema ty subject st) fun st =>
      andThen (collectWs norm schema ty whens st) fun st =>
        collectE norm schema ty els st
  | .func args filter over orderBy, st =>
    andThen (collectArgs norm schema ty args st) fun st =>
      andThen (collectE norm schema ty filter st) fun st =>
        andThen (collectOver norm schema ty over st) fun st =>
          collectEs norm schema ty orderBy st
  | .name parts star, st => nameRefs schema parts star ty st
  | .unqualifiedStar, st => .ok ([{ table := [], name := [], type := .star }], st)
  | .tupleStar (.name parts _), st => tupleStarName schema parts st
  | .tupleStar e, st => collectE norm schema ty e st
  | .columnAccess (.name parts _) col, st => columnAccessName schema parts col ty st
  | .columnAccess e _, st => collectE norm schema ty e st
  | .allColumns table, st => allColumnsRefs schema table st
  | .columnItem table col, st => columnItemRefs norm schema table col st
  | .subquery _ body, st => subqueryRefs body st

/-- a loop over expressions -/
def collectEs (norm : Str → Str) (schema : Str) (ty : FieldType) : List Expr → St → Cols
  | [], st => nothing st
  | e :: es, st =>
    andThen (collectE norm schema ty e st) fun st => collectEs norm schema ty es st

/-- `collect_stmt_scopes.go:377-383`: the arguments of a function. -/
def collectArgs (norm : Str → Str) (schema : Str) (ty : FieldType) : List Expr → St → Cols
  | [], st => nothing st
  | .unqualifiedStar :: es, st => collectArgs norm schema ty es st
  | e :: es, st =>
    andThen (collectE norm schema ty e st) fun st => collectArgs norm schema ty es st

/-- `collect_stmt_scopes.go:247-250` -/
def collectWs (norm : Str → Str) (schema : Str) (ty : FieldType) : List When → St → Cols
  | [], st => nothing st
  | w :: ws, st =>
    andThen (collectW norm schema ty w st) fun st => collectWs norm schema ty ws st

/-- `collect_stmt_scopes.go:248-249` -/
def collectW (norm : Str → Str) (schema : Str) (ty : FieldType) : When → St → Cols
  | .mk cond val, st =>
    andThen (collectE norm schema ty cond st) fun st => collectE norm schema ty val st

/-- `collect_stmt_scopes.go:387-398` -/
def collectOver (norm : Str → Str) (schema : Str) (ty : FieldType) : Over → St → Cols
  | .none, st => nothing st
  | .mk partitions orderBy frame, st =>
    andThen (collectEs norm schema ty partitions st) fun st =>
      andThen (collectEs norm schema ty orderBy st) fun st =>
        collectFrame norm schema ty frame st

/-- `collect_stmt_scopes.go:394-397` -/
def collectFrame (norm : Str → Str) (schema : Str) (ty : FieldType) : Frame → St → Cols
  | .none, st => nothing st
  | .mk start stop, st =>
    andThen (collectBound norm schema ty start st) fun st => collectBound norm schema ty stop st

/-- `frame.Bounds.StartBound.OffsetExpr`: a nil bound is dereferenced. -/
def collectBound (norm : Str → Str) (schema : Str) (ty : FieldType) : Bound → St → Cols
  | .none, _ => .error .panic
  | .mk e, st => collectE norm schema ty e st

end

/-- Result of `collectTables`. -/
abbrev Tabs := Except Fail (List Table × List Field × St)

/-- `collect_stmt_scopes.go:516-520,534-538` -/
def collectRows (norm : Str → Str) (schema : Str) :
    List Expr → St → Except Fail (List Field × St)
  | [], st => .ok ([], st)
  | e :: es, st =>
    match collectE norm schema .reference e st with
    | .error f => .error f
    | .ok (cols, st) =>
      match collectRows norm schema es st with
      | .error f => .error f
      | .ok (fs, st) => .ok ({ columns := cols } :: fs, st)

/-- `sc.lastError = e`, no tables. -/
def failTab (e : Err) (st : St) : Tabs := .ok ([], [], { st with lastError := some e })

/-- `collect_stmt_scopes.go:485-501` -/
def derivedTable (norm : Str → Str) (body : Body) (as : Str) (lateral : Bool) (st : St) : Tabs :=
  match newTableInfo body st with
  | .error e => failTab e st
  | .ok (n, st) => .ok ([⟨norm as, n, lateral⟩], [], st)

/-- `collect_stmt_scopes.go:516-520`, as a result of `collectTables`. -/
def rowsTab (norm : Str → Str) (schema : Str) (items : List Expr) (st : St) : Tabs :=
  match collectRows norm schema items st with
  | .error f => .error f
  | .ok (fs, st) => .ok ([], fs, st)

/-- `collect_stmt_scopes.go:502-507` -/
def objectTab (norm : Str → Str) (schema : Str) (parts : List Str) (as : Str) (st : St) : Tabs :=
  if schemaSpecified schema parts 1 then failTab .explicitSchema st
  else .ok ([⟨norm as, part parts 0, false⟩], [], st)

/-- `collect_stmt_scopes.go:521-526` -/
def nameTab (norm : Str → Str) (schema catalog sName table as : Str) (st : St) : Tabs :=
  if tableSchemaSpecified norm schema catalog sName then failTab .explicitSchema st
  else .ok ([⟨norm as, table, false⟩], [], st)

/-- `collect_stmt_scopes.go:563-579`: the join condition. -/
def collectCond (norm : Str → Str) (schema : Str) (c : Cond) (st : St) :
    Except Fail (List Field × St) :=
  match c with
  | .none => .ok ([], st)
  | .natural => .ok ([], { st with lastError := some .naturalJoin })
  | .on e =>
    match collectE norm schema .condition e st with
    | .error f => .error f
    | .ok (cols, st) => .ok ([{ columns := cols }], st)
  | .using cols =>
    .ok (cols.map fun col => { columns := [{ table := [], name := norm col, type := .condition }] },
      st)

/-- `collect_stmt_scopes.go:553-582` `collectJoinReferences`; `rec_` is `collectTables`. -/
def collectJoin (norm : Str → Str) (schema : Str) (rec_ : TableExpr → St → Tabs)
    (l r : TableExpr) (c : Cond) (st : St) : Tabs :=
  match rec_ l st with
  | .error f => .error f
  | .ok (lt, lf, st) =>
    match rec_ r st with
    | .error f => .error f
    | .ok (rt, rf, st) =>
      match collectCond norm schema c st with
      | .error f => .error f
      | .ok (cf, st) => .ok (lt ++ rt, lf ++ rf ++ cf, st)

/-- `collect_stmt_scopes.go:475-551` `collectTables`.  The recursion follows the code, including the
two calls for a parenthesised table expression with that same expression; the first argument bounds
the number of nested calls. -/
def collectT (norm : Str → Str) (schema : Str) : Nat → TableExpr → St → Tabs
  | 0, _, _ => .error .fuel
  | _ + 1, .aliased (.subquery _ body) as lateral, st => derivedTable norm body as lateral st
  | _ + 1, .aliased (.objectName parts) as _, st => objectTab norm schema parts as st
  | _ + 1, .aliased .statementSource _ _, st => failTab .statementSource st
  | _ + 1, .aliased (.aliased _ _ _) _ _, st => failTab .nestedAs st
  | n + 1, .aliased (.paren t) _ _, st => collectT norm schema n (.paren t) st
  | n + 1, .aliased (.join l r c) _ _, st => collectJoin norm schema (collectT norm schema n) l r c st
  | _ + 1, .aliased (.rowsFrom items) _ _, st => rowsTab norm schema items st
  | _ + 1, .aliased (.tableName catalog sName table) as _, st =>
    nameTab norm schema catalog sName table as st
  | _ + 1, .aliased .tableRef _ _, st => failTab .tableRef st
  | n + 1, .paren t, st => collectT norm schema n (.paren t) st
  | n + 1, .join l r c, st => collectJoin norm schema (collectT norm schema n) l r c st
  | _ + 1, .rowsFrom items, st => rowsTab norm schema items st
  | _ + 1, .subquery _ _, st => .ok ([], [], st)
  | _ + 1, .statementSource, st => failTab .statementSource st
  | _ + 1, .tableName _ _ _, st => failTab .fromItem st
  | _ + 1, .objectName _, st => failTab .fromItem st
  | _ + 1, .tableRef, st => failTab .fromItem st

/-- The state while a clause is entered: the fields found so far are kept apart. -/
abbrev Found := Except Fail (List Field × St)

/-- `getAndClearLastError` (215-219) after a collection that gives one field, as in
`collect_stmt_scopes.go:78-87` and `createFieldFromExpr` with its callers (98-151): the field is kept
unless an error is pending, which is recorded. -/
def keepField (as : Str) (cols : List FieldColumn) (st : St) : List Field × St :=
  match st.lastError with
  | some e => ([], { st with lastError := none, errors := st.errors ++ [e] })
  | none => ([⟨as, cols⟩], st)

/-- one expression: collect, then `keepField` -/
def foundE (norm : Str → Str) (schema : Str) (ty : FieldType) (as : Str) (e : Expr) (st : St) :
    Found :=
  match collectE norm schema ty e st with
  | .error f => .error f
  | .ok (cols, st) => .ok (keepField as cols st)

/-- Two parts one after the other. -/
def thenFound (r : Found) (f : St → Found) : Found :=
  match r with
  | .error e => .error e
  | .ok (a, st) =>
    match f st with
    | .error e => .error e
    | .ok (b, st') => .ok (a ++ b, st')

/-- `collect_stmt_scopes.go:77-88`: the selected expressions. -/
def foundSEs (norm : Str → Str) (schema : Str) : List SelExpr → St → Found
  | [], st => .ok ([], st)
  | .mk e as :: es, st =>
    thenFound (foundE norm schema .reference as e st) fun st => foundSEs norm schema es st

/-- `collect_stmt_scopes.go:107-114,128-135`: a list of expressions. -/
def foundEs (norm : Str → Str) (schema : Str) : List Expr → St → Found
  | [], st => .ok ([], st)
  | e :: es, st =>
    thenFound (foundE norm schema .reference [] e st) fun st => foundEs norm schema es st

/-- `collect_stmt_scopes.go:98-105,116-123`: an optional clause. -/
def foundO (norm : Str → Str) (schema : Str) (ty : FieldType) : Option Expr → St → Found
  | none, st => .ok ([], st)
  | some e, st => foundE norm schema ty [] e st

/-- `getAndClearLastError` where nothing is dropped (91-93). -/
def recordError (st : St) : St :=
  match st.lastError with
  | some e => { st with lastError := none, errors := st.errors ++ [e] }
  | none => st

/-- Writing to the scope at a pointer. -/
def St.update (st : St) (p : Nat) (f : Cell → Cell) : St := { st with heap := st.heap.modify p f }

/-- `collect_stmt_scopes.go:89-97`: the FROM items; each one overwrites `scope.Tables`. -/
def foundTs (norm : Str → Str) (schema : Str) (fuel p : Nat) : List TableExpr → St → Found
  | [], st => .ok ([], st)
  | t :: ts, st =>
    match collectT norm schema fuel t st with
    | .error f => .error f
    | .ok (tables, fields, st) =>
      thenFound (.ok (fields, (recordError st).update p fun c => { c with tables := tables }))
        fun st => foundTs norm schema fuel p ts st

/-- `collect_stmt_scopes.go:124-126` -/
def foundWindow (window : Bool) (st : St) : Found :=
  .ok ([], if window then { st with errors := st.errors ++ [.window] } else st)

/-- `collect_stmt_scopes.go:137-151` -/
def foundLimit (norm : Str → Str) (schema : Str) : Limit → St → Found
  | .none, st => .ok ([], st)
  | .mk count offset, st =>
    thenFound (foundE norm schema .reference [] count st) fun st =>
      foundE norm schema .reference [] offset st

/-- `collect_stmt_scopes.go:152-154` -/
def withError (w : Option (List Cte)) (st : St) : St :=
  if w.isSome then { st with lastError := some .withClause } else st

/-- `collect_stmt_scopes.go:156-164`: the fields that have columns go to the scope, and the first scope
of all is returned. -/
def finishEnter (p : Nat) (found : List Field) (st : St) : St :=
  { st.update p (fun c => { c with fields := c.fields ++ found.filter (·.columns ≠ []) }) with
    scopes := if st.scopes = [] then [p] else st.scopes }

/-- `collect_stmt_scopes.go:74-164`: the part of `Enter` for a select clause; `p` is the new scope. -/
def enterClause (norm : Str → Str) (schema : Str) (fuel : Nat) (node : Node) (p : Nat) :
    Select → St → Except Fail St
  | .mk _ w orderBy limit (.clause exprs tables where_ groupBy having window _), st =>
    let st := { st with stack := (node, p) :: st.stack }
    match
      thenFound (foundSEs norm schema exprs st) fun st =>
      thenFound (foundTs norm schema fuel p tables st) fun st =>
      thenFound (foundO norm schema .condition where_ st) fun st =>
      thenFound (foundEs norm schema groupBy st) fun st =>
      thenFound (foundO norm schema .reference having st) fun st =>
      thenFound (foundWindow window st) fun st =>
      thenFound (foundEs norm schema orderBy st) fun st =>
      foundLimit norm schema limit st with
    | .error f => .error f
    | .ok (found, st) => .ok (finishEnter p found (withError w st))
  | _, st => .ok st

/-- `collect_stmt_scopes.go:186-188,615-627`: a new scope for a `*tree.Select`, hooked into the scope on
top of the stack. -/
def newScope (id : Nat) (st : St) : St :=
  let name := ((mapGet id st.infos).map (·.name)).getD rootName
  let st' : St := { st with heap := st.heap ++ [{ name := name }] }
  match st.stack with
  | [] => st'
  | (_, q) :: _ => st'.update q fun c => { c with subScopes := c.subScopes ++ [st.heap.length] }

/-- `collect_stmt_scopes.go:63-72,177-189` `Enter` for a `*tree.Select`. -/
def enterSelect (norm : Str → Str) (schema : Str) (fuel : Nat) (s : Select) (st : St) :
    Except Fail St :=
  if ((mapGet s.id st.infos).bind (·.fieldOf)).isSome then .ok st
  else enterClause norm schema fuel (.select s.id) st.heap.length s (newScope s.id st)

/-- `collect_stmt_scopes.go:205-207`: a new scope for a subquery of an expression, hooked into the scope
it was found in. -/
def newFieldScope (name : Str) (parent : Nat) (st : St) : St :=
  let st' : St := { st with heap := st.heap ++ [{ name := name }] }
  st'.update parent fun c => { c with fieldScopes := c.fieldScopes ++ [st.heap.length] }

/-- `collect_stmt_scopes.go:63-72,191-210` `Enter` for a `*tree.Subquery`. -/
def enterSubquery (norm : Str → Str) (schema : Str) (fuel : Nat) (id : Nat) (body : Body) (st : St) :
    Except Fail St :=
  match body with
  | .paren s =>
    match mapGet s.id st.infos with
    | some ⟨name, some parent⟩ =>
      enterClause norm schema fuel (.subquery id) st.heap.length s (newFieldScope name parent st)
    | _ => .ok st
  | _ => .ok st

/-- `collect_stmt_scopes.go:169-175` `Leave`; `Top()` of an empty stack is nil and is dereferenced.
`none` is a node of another type. -/
def leave (node : Option Node) (st : St) : Except Fail St :=
  match st.stack with
  | [] => .error .panic
  | (n, _) :: rest => if some n = node then .ok { st with stack := rest } else .ok st

/-- One call of the visitor. -/
def scopeStep (norm : Str → Str) (schema : Str) (fuel : Nat) (st : St) : Ev → Except Fail St
  | .enterSelect s => enterSelect norm schema fuel s st
  | .leaveSelect s => leave (some (.select s.id)) st
  | .enterSubquery id body => enterSubquery norm schema fuel id body st
  | .leaveSubquery id => leave (some (.subquery id)) st
  | .enterAliased _ _ => .ok st
  | .plain => leave none st
  | .unknown => leave none { st with unknown := st.unknown ++ [.unknownNode] }

/-- The calls one after the other. -/
def runScopes (norm : Str → Str) (schema : Str) (fuel : Nat) (evs : List Ev) (st : St) :
    Except Fail St :=
  evs.foldlM (scopeStep norm schema fuel) st

/-- The scope tree at a pointer.  Scopes point to younger scopes only, so the size of the memory bounds
the depth; `none` would be a cycle or a dangling pointer. -/
def readScope (heap : List Cell) : Nat → Nat → Option Scope
  | 0, _ => none
  | n + 1, p =>
    match heap[p]? with
    | none => none
    | some c =>
      match c.fieldScopes.mapM (readScope heap n), c.subScopes.mapM (readScope heap n) with
      | some fs, some ss => some (.mk c.name c.fields fs c.tables ss)
      | _, _ => none

/-- `collect_stmt_scopes.go:45-61` `CollectStmtScopes` -/
def collectStmtScopes (norm : Str → Str) (schema : Str) (fuel : Nat) :
    Stmt → Except Fail (Except (List Err) (List Scope))
  | .other => .ok (.error [.onlySelect])
  | .select s =>
    match runScopes norm schema fuel (walkS s) {} with
    | .error f => .error f
    | .ok st =>
      if st.unknown ≠ [] then .ok (.error st.unknown)
      else if st.errors ≠ [] then .ok (.error st.errors)
      else
        match st.scopes.mapM (readScope st.heap st.heap.length) with
        | none => .error .fuel
        | some scopes => .ok (.ok scopes)

end Verif.PgScope
