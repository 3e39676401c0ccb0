import Verif.Builder.Model
/-!
# From catalogue rows to table schemas

`/repo/database/dservice/dparser/table_schema.go` and its callers
`/repo/database/{mysql/mservice,postgres/pservice,hasura/hservice}/parser/collect_table_schemas.go`.
-/
namespace Verif.Schemas
open Verif.Builder Verif.Lib

/-- `table_schema.go:28-34`: append the row's column and, if flagged, the primary key. -/
def addColumn (t : TableSchema) (col : Name) (isPK : Bool) : TableSchema :=
  { t with
    columns := t.columns ++ [col]
    primaryKeys := if isPK then t.primaryKeys ++ [col] else t.primaryKeys }

/-- `table_schema.go:19-34`: the body of the loop over the rows.  The Go map holds pointers and the
schema is changed in place; here the entry is replaced. -/
def addRow (tName col : Name) (isPK : Bool) : List (Name × TableSchema) → List (Name × TableSchema)
  | [] => [(tName, addColumn ⟨tName, [], []⟩ col isPK)]
  | (k, t) :: r =>
    if tName = k then (k, addColumn t col isPK) :: r else (k, t) :: addRow tName col isPK r

/-- `table_schema.go:15-35`: the loop over the rows. -/
def collectRows {T : Type} (f : T → Name × Name × Bool) (vals : List T) : List (Name × TableSchema) :=
  vals.foldl (fun m v => addRow (f v).1 (f v).2.1 (f v).2.2 m) []

/-- `table_schema.go:14-47` `CreateTableSchemas`; a nil pointer is `none`. -/
def createTableSchemas {T : Type} (tables : List Name) (vals : List T)
    (f : T → Name × Name × Bool) : List (Option TableSchema) :=
  tables.map (fun t => mapGet t (collectRows f vals))

/-- Failures of `CollectTableSchemas`. -/
inductive Err (ε : Type) where
  /-- the catalogue query failed -/
  | db (e : ε)
  /-- `lib.NewUnsupportedError` naming the table -/
  | unknownTable (t : Name)
  /-- index out of range -/
  | panic
deriving DecidableEq, Repr

/-- `collect_table_schemas.go:21-25`: the loop over the requested names (`schemas[i]` would panic if
the lists had different lengths). -/
def checkAll {ε : Type} : List Name → List (Option TableSchema) → Except (Err ε) (List TableSchema)
  | [], _ => .ok []
  | _ :: _, [] => .error .panic
  | t :: _, none :: _ => .error (.unknownTable t)
  | _ :: ts, some s :: ss =>
    match checkAll ts ss with
    | .error e => .error e
    | .ok r => .ok (s :: r)

/-- `collect_table_schemas.go:11-33` `CollectTableSchemas`.  `cols` is the result of
`GetTableColumns`; the debug log (27-30) is not modelled. -/
def collectTableSchemas {T ε : Type} (cols : Except ε (List T)) (f : T → Name × Name × Bool)
    (tables : List Name) : Except (Err ε) (List TableSchema) :=
  match cols with
  | .error e => .error (.db e)
  | .ok rows => checkAll tables (createTableSchemas tables rows f)

/-- A catalogue row of MySQL, `/repo/infra/mysql/column_info.go` (the fields that are used). -/
structure MysqlColumn where
  tableName : Name
  columnName : Name
  columnKey : List Char
deriving DecidableEq, Repr

/-- `mysql/mservice/parser/collect_table_schemas.go:17-19` -/
def mysqlRow (c : MysqlColumn) : Name × Name × Bool :=
  (c.tableName, c.columnName, c.columnKey = "PRI".toList)

end Verif.Schemas
