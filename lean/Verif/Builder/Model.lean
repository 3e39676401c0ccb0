import Verif.Index.Model
import Verif.Lib.Coll
/-!
# From referenced columns to index candidates

`/repo/database/dservice/dparser/index_target_builder.go` and `index_target_table.go`.
-/
namespace Verif.Builder
open Verif.Index Verif.Lib

/-- Names. -/
abbrev Name := List Char

/-- `/repo/database/dservice/dparser/field_type.go:3-11` -/
inductive FieldType where
  | reference | condition | aggregation | subquery | star
deriving DecidableEq, Repr

/-- `/repo/database/dservice/dparser/field_column.go:3-10` -/
structure FieldColumn where
  referenceName : Name := []
  table : Name
  name : Name
  type : FieldType
deriving DecidableEq, Repr

/-- `/repo/database/dservice/dparser/index_field.go:3-6` -/
structure IndexField where
  name : Name
  type : FieldType
deriving DecidableEq, Repr

/-- `/repo/database/dservice/dparser/table_schema.go:8-12`; a `ColumnSchema` is just its name. -/
structure TableSchema where
  name : Name
  columns : List Name
  primaryKeys : List Name
deriving DecidableEq, Repr

/-- `/repo/database/dservice/dparser/index_target_table.go:10-13` -/
structure IndexTargetTable where
  tableName : Name
  indexFields : List IndexField
deriving DecidableEq, Repr

/-- The composite literal of `index_target_builder.go:115-118,121-124`. -/
def FieldColumn.toIndexField (fc : FieldColumn) : IndexField := ⟨fc.name, fc.type⟩

/-- `index_target_builder.go:107`: the negated skip condition. -/
def usable (fc : FieldColumn) : Bool := fc.type = .reference || fc.type = .condition

/-- Iteration orders of `Set.Values` (`/repo/lib/set.go:33-40`): one for each call, where a call is
identified by its position in the call tree. -/
abbrev Order := List Nat → List FieldColumn → List FieldColumn

/-- `index_target_builder.go:104-132` `compositeFieldColumns`.  The set is a duplicate-free list;
`Delete` is `erase` and `Add` afterwards restores the set.  The recursion depth is at most the size
of the set: `depth` starts at the size, so `0` is only reached with the empty set, for which the
loop of the code does nothing.  `r2 := r[:]; append(r2, …)` never writes into a list that is still
used (each `r` is used once), so it is `r ++ [x]`. -/
def composite (ord : Order) : Nat → List Nat → List FieldColumn → List (List IndexField)
  | 0, _, _ => []
  | depth + 1, path, s =>
    (ord path s).zipIdx.flatMap fun p =>
      if usable p.1 then
        [[p.1.toIndexField]] ++
          (composite ord depth (path ++ [p.2]) (s.erase p.1)).map (· ++ [p.1.toIndexField])
      else []

/-- Go's `a > b` on strings: code point order (bytewise order of UTF-8). -/
def gt (a b : Name) : Bool := decide (b < a)

/-- `index_target_builder.go:87-96`: the inner loop from `j = i + 1`; `prev` is `fields[j-1]`.
`false` is `goto next`. -/
def refTail (prev : IndexField) : List IndexField → Bool
  | [] => true
  | f :: r =>
    if f.type ≠ .reference then false
    else if gt prev.name f.name then false
    else refTail f r

/-- `index_target_builder.go:78-97`: the loop over `i`; `full` says whether
`len(fields) == fieldColumns.Count()`. -/
def efficientLoop (full : Bool) : List IndexField → Bool
  | [] => true
  | f :: r =>
    if f.type ≠ .reference then efficientLoop full r
    else if !full then false
    else if refTail f r then efficientLoop full r
    else false

/-- `index_target_builder.go:73-102` `extractEfficientIndexes` -/
def extractEfficient (ord : Order) (path : List Nat) (s : List FieldColumn) :
    List (List IndexField) :=
  (composite ord s.length path s).filter fun fields =>
    efficientLoop (fields.length = s.length) fields

/-- `index_target_builder.go:134-152` `removePkOnlyFields` -/
def removePkOnly (pkCols : List Name) (l : List (List IndexField)) : List (List IndexField) :=
  l.filter fun fs => !(fs.all fun f => decide (f.name ∈ pkCols))

/-- `index_target_builder.go:66-71` `buildIndexComposition`; `lib.NewSetS` is `uniq`. -/
def buildIndexComposition (ord : Order) (path : List Nat) (f : List FieldColumn)
    (pkCols : List Name) : List (List IndexField) :=
  removePkOnly pkCols (extractEfficient ord path (uniq f))

/-- Errors of `Build`. -/
inductive BuildErr (E : Type) where
  | fields (e : E)
  | unknownTable (t : Name)
deriving DecidableEq, Repr

/-- `index_target_builder.go:17-22`: the map from table name to schema (the last of equal names
wins); nil schemas are excluded by the callers (`collect_table_schemas.go`). -/
def schemaMap (schemas : List TableSchema) (t : Name) : Option TableSchema :=
  schemas.reverse.find? (·.name = t)

/-- `index_target_builder.go:48-61`: the loop over the table map of one scope, in iteration order. -/
def buildTables {E : Type} (ord : Order) (schemas : List TableSchema) :
    Nat → List Nat → List (Name × List FieldColumn) → Except (BuildErr E) (List IndexTargetTable)
  | _, _, [] => .ok []
  | i, path, (tName, f) :: rest =>
    match schemaMap schemas tName with
    | none => .error (.unknownTable tName)
    | some sch =>
      match buildTables ord schemas (i + 1) path rest with
      | .error e => .error e
      | .ok ts => .ok ((buildIndexComposition ord (path ++ [i]) f sch.primaryKeys).map
          (fun fs => ⟨tName, fs⟩) ++ ts)

/-- `index_target_builder.go:25-33`: the loop over scopes.  `scopes` holds, for each scope, the
result of `buildTableFields` (modelled in `Verif/Fields`), its map listed in iteration order. -/
def buildScopes {E : Type} (ord : Order) (schemas : List TableSchema) :
    Nat → List (Except E (List (Name × List FieldColumn))) →
      Except (BuildErr E) (List IndexTargetTable)
  | _, [] => .ok []
  | _, .error e :: _ => .error (.fields e)
  | i, .ok m :: rest =>
    match buildTables ord schemas 0 [i] m with
    | .error e => .error e
    | .ok ts =>
      match buildScopes ord schemas (i + 1) rest with
      | .error e => .error e
      | .ok ts' => .ok (ts ++ ts')

/-- `index_target_table.go:40-46`: the column loop of the comparison. -/
def lessNames : List Name → List Name → Bool
  | a :: as, b :: bs => if a = b then lessNames as bs else decide (a < b)
  | _, _ => false

/-- `index_target_table.go:29-49`: the comparison given to `sort.Slice`. -/
def less (a b : IndexTargetTable) : Bool :=
  if a.tableName ≠ b.tableName then decide (a.tableName < b.tableName)
  else if a.indexFields.length ≠ b.indexFields.length then
    decide (a.indexFields.length < b.indexFields.length)
  else lessNames (a.indexFields.map (·.name)) (b.indexFields.map (·.name))

/-- The contract of `sort.Slice`: some rearrangement in which no element is less than an earlier one.
(It is not stable.) -/
def IsSort (srt : List IndexTargetTable → List IndexTargetTable) : Prop :=
  ∀ l, (srt l).Perm l ∧ (srt l).Pairwise (fun a b => less b a = false)

/-- `index_target_table.go:15-23` `ToIndexTarget` -/
def IndexTargetTable.toIndexTarget (t : IndexTargetTable) : IndexTarget :=
  newIndexTarget t.tableName (t.indexFields.map (·.name))

/-- `index_target_builder.go:24-38` `Build` -/
def build {E : Type} (ord : Order) (srt : List IndexTargetTable → List IndexTargetTable)
    (schemas : List TableSchema) (scopes : List (Except E (List (Name × List FieldColumn)))) :
    Except (BuildErr E) (List IndexTarget) :=
  match buildScopes ord schemas 0 scopes with
  | .error e => .error e
  | .ok tables => .ok ((srt tables).map (·.toIndexTarget))

end Verif.Builder
