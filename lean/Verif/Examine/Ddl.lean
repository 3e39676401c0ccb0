import Verif.Index.Model
/-!
# Statements sent by the three index examiners
-/
namespace Verif.Examine
open Verif.Index

/-- `lib.Join(it.Columns, ",", func(i) { return q + i.SafeName() + q })` as used in the three
`CreateIndex` functions below. -/
def quotedColumns (q : Char) (it : IndexTarget) : List Char :=
  joinWith ",".toList (it.columns.map fun c => q :: c.safeName ++ [q])

/-- `/repo/database/mysql/mservice/index_examiner.go:34-42`:
``ALTER TABLE `%s` ADD INDEX `%s` (%s)`` -/
def mysqlCreate (name : List Char) (it : IndexTarget) : List Char :=
  "ALTER TABLE ".toList ++ ('`' :: it.tableName ++ '`' :: " ADD INDEX ".toList) ++
    ('`' :: name ++ '`' :: " (".toList) ++ quotedColumns '`' it ++ ")".toList

/-- `/repo/database/mysql/mservice/index_examiner.go:44-48`: ``ALTER TABLE `%s` DROP INDEX `%s` `` -/
def mysqlDrop (name : List Char) (it : IndexTarget) : List Char :=
  "ALTER TABLE ".toList ++ ('`' :: it.tableName ++ '`' :: " DROP INDEX ".toList) ++
    ('`' :: name ++ ['`'])

/-- `/repo/database/postgres/pservice/index_examiner.go:34-41` and, word for word the same,
`/repo/database/hasura/hservice/index_examiner.go:36-43`: `CREATE INDEX "%s" ON "%s" (%s)` -/
def postgresCreate (name : List Char) (it : IndexTarget) : List Char :=
  "CREATE INDEX ".toList ++ ('"' :: name ++ '"' :: " ON ".toList) ++
    ('"' :: it.tableName ++ '"' :: " (".toList) ++ quotedColumns '"' it ++ ")".toList

/-- `/repo/database/postgres/pservice/index_examiner.go:43-47` and
`/repo/database/hasura/hservice/index_examiner.go:45-49`: `DROP INDEX "%s"` -/
def postgresDrop (name : List Char) (_it : IndexTarget) : List Char :=
  "DROP INDEX ".toList ++ ('"' :: name ++ ['"'])

end Verif.Examine
