import Verif.Builder.Model
/-!
# Column resolution over scope trees

`/repo/database/dservice/dparser/build_table_fields.go`, `stmt_scope.go`, `field.go`, `table.go`.

Go maps are association lists; every `range` over a map or `Set.Values` goes through an iteration
order chosen by a parameter, one for each execution of the loop.
-/
namespace Verif.Fields
open Verif.Index Verif.Lib Verif.Builder

/-- `/repo/database/dservice/dparser/table.go:3-7` -/
structure Table where
  asName : Name := []
  name : Name
  isLateral : Bool := false
deriving DecidableEq, Repr

/-- `/repo/database/dservice/dparser/table.go:9-15` `AsOrName` -/
def Table.asOrName (t : Table) : Name := if t.asName ≠ [] then t.asName else t.name

/-- `/repo/database/dservice/dparser/field.go:3-6` -/
structure Field where
  asName : Name := []
  columns : List FieldColumn
deriving DecidableEq, Repr

/-- `/repo/database/dservice/dparser/field.go:8-16` `Name` -/
def Field.outName (f : Field) : Name :=
  if f.asName ≠ [] then f.asName
  else match f.columns with
    | [c] => c.name
    | _ => []

/-- `/repo/database/dservice/dparser/stmt_scope.go:7-14`.  `CTEs` is left out: column resolution does
not read it. -/
inductive Scope where
  | mk (name : Name) (fields : List Field) (fieldScopes : List Scope) (tables : List Table)
      (subScopes : List Scope)

/-- Field access. -/
def Scope.name : Scope → Name | .mk n _ _ _ _ => n
/-- Field access. -/
def Scope.fields : Scope → List Field | .mk _ f _ _ _ => f
/-- Field access. -/
def Scope.fieldScopes : Scope → List Scope | .mk _ _ s _ _ => s
/-- Field access. -/
def Scope.tables : Scope → List Table | .mk _ _ _ t _ => t
/-- Field access. -/
def Scope.subScopes : Scope → List Scope | .mk _ _ _ _ s => s

/-- `build_table_fields.go:17-20` `columnInfo` -/
structure ColInfo where
  tableName : Name
  name : Name
deriving DecidableEq, Repr

/-- `build_table_fields.go:12-15` `outputCol` -/
structure OutputCol where
  name : Name
  refs : List ColInfo
deriving DecidableEq, Repr

/-- `build_table_fields.go:9` `tableOutputCols` -/
abbrev OutMap := List (Name × List OutputCol)
/-- `build_table_fields.go:10` `tableFieldColumns` -/
abbrev FieldMap := List (Name × List FieldColumn)

/-- Failures: the two `InvalidAstError`s and the nil dereference at line 46. -/
inductive Err where
  | noTable (n : Name)
  | noColumn (n : Name)
  | panic
deriving DecidableEq, Repr

/-- `m[k] = v` -/
def mapSet {α : Type} (k : Name) (v : α) : List (Name × α) → List (Name × α)
  | [] => [(k, v)]
  | (k', v') :: r => if k = k' then (k, v) :: r else (k', v') :: mapSet k v r

/-- Keys of a map. -/
def keys {α : Type} (m : List (Name × α)) : List Name := m.map (·.1)

/-- Iteration orders: for each loop execution (identified by its position) a rearrangement of the
keys. -/
abbrev KeyOrder := List Nat → List Name → List Name

/-- `build_table_fields.go:141-148`: `res[tName] = append(res[tName], …)`. -/
def appendCol (t c : Name) (m : OutMap) : OutMap :=
  mapSet t ((mapGet t m).getD [] ++ [⟨c, [⟨t, c⟩]⟩]) m

/-- `build_table_fields.go:136-154` `buildReferencingColumns` -/
def buildReferencingColumns (db : Name → Option TableSchema) (tables : List Table) : OutMap :=
  tables.foldl (fun res t =>
    match db t.name with
    | some sch => sch.columns.foldl (fun res c => appendCol t.name c res) res
    | none => res) []

/-- `build_table_fields.go:248-254` `refTables` with `referencingFields` of `scopeInfo`
(`build_table_fields.go:108-119`); `dbTables`, `scope` and the external columns are arguments. -/
structure Info where
  internalCols : OutMap
  asToName : List (Name × Name)
  subqueryAsNames : List Name
  refFields : FieldMap
deriving Repr

/-- `build_table_fields.go:121-134,256-273` `newScopeInfo`, `newRefTables` -/
def newInfo (db : Name → Option TableSchema) (tables : List Table) (ext : OutMap) : Info where
  internalCols := buildReferencingColumns db tables
  asToName := tables.foldl (fun m t => mapSet t.asOrName t.name m)
    ((keys ext).foldl (fun m k => mapSet k k m) [])
  subqueryAsNames := keys ext
  refFields := []

/-- `build_table_fields.go:202-208`: the loop of `addReferencingField` over the columns already
present, with the final append of line 210. -/
def addToList (col : FieldColumn) : List FieldColumn → List FieldColumn
  | [] => [col]
  | c :: cs =>
    if c.name = col.name then
      (if c.type = .reference ∧ col.type = .condition then col else c) :: cs
    else c :: addToList col cs

/-- `build_table_fields.go:195-211` `addReferencingField` -/
def addReferencingField (t : Name) (col : FieldColumn) (m : FieldMap) : FieldMap :=
  mapSet t (addToList col ((mapGet t m).getD [])) m

/-- `build_table_fields.go:187-193` `addReferencingFields`, over the new map in iteration order. -/
def addReferencingFields (ks : List Name) (new : FieldMap) (m : FieldMap) : FieldMap :=
  ks.foldl (fun m t => ((mapGet t new).getD []).foldl (fun m c => addReferencingField t c m) m) m

/-- `build_table_fields.go:160-163,275-279` `addSubqueryInfo`, `addSubquery` -/
def addSubqueryInfo (ks : List Name) (name asName : Name) (cols : List OutputCol) (new : FieldMap)
    (i : Info) : Info where
  internalCols := mapSet name cols i.internalCols
  asToName := mapSet asName name i.asToName
  subqueryAsNames := asName :: i.subqueryAsNames
  refFields := addReferencingFields ks new i.refFields

/-- `build_table_fields.go:237-246` `getVisibleColumns`.  The loop fills a map with distinct keys, so
its order is irrelevant. -/
def getVisibleColumns (i : Info) : OutMap :=
  i.asToName.filterMap fun p => (mapGet p.2 i.internalCols).map fun cols => (p.1, cols)

/-- `lo.Assign(a, b)`: `b` overrides `a`. -/
def assign (a b : OutMap) : OutMap := b.foldl (fun m p => mapSet p.1 p.2 m) a

/-- `build_table_fields.go:281-291` `getTableColsFromName` -/
def getTableColsFromName (i : Info) (ext : OutMap) (name : Name) : Except Err (List OutputCol) :=
  match mapGet name i.internalCols with
  | some cols => .ok cols
  | none =>
    match mapGet name ext with
    | some cols => .ok cols
    | none => .error (.noTable name)

/-- `build_table_fields.go:293-300` `getTableColsFromAsName` -/
def getTableColsFromAsName (i : Info) (ext : OutMap) (asName : Name) :
    Except Err (List OutputCol) :=
  match mapGet asName i.asToName with
  | some name => getTableColsFromName i ext name
  | none => .error (.noTable asName)

/-- `build_table_fields.go:302-315` `getReferencingColumnInfos` -/
def getReferencingColumnInfos (i : Info) (ext : OutMap) (c : FieldColumn) :
    Except Err (List ColInfo) :=
  match getTableColsFromAsName i ext c.table with
  | .error e => .error e
  | .ok cols =>
    match cols.find? (fun fc => c.name = fc.name) with
    | some fc => .ok fc.refs
    | none => .error (.noColumn c.name)

/-- `build_table_fields.go:334-344` `getColumnInfosFromTableOutputCols`; `ks` is the map's keys in
iteration order. -/
def getColumnInfosFrom (ks : List Name) (m : OutMap) (colName : Name) : Option (List ColInfo) :=
  ks.findSome? fun k =>
    (((mapGet k m).getD []).find? (fun fc => colName = fc.name)).map (·.refs)

/-- `build_table_fields.go:317-332` `getColumnInfos` -/
def getColumnInfos (ord : KeyOrder) (path : List Nat) (i : Info) (ext : OutMap) (colName : Name) :
    Except Err (List ColInfo) :=
  match getColumnInfosFrom (ord (path ++ [0]) (keys i.internalCols)) i.internalCols colName with
  | some cols => .ok cols
  | none =>
    match getColumnInfosFrom (ord (path ++ [1]) (keys ext)) ext colName with
    | some cols => .ok cols
    | none => if colName ∈ i.subqueryAsNames then .ok [] else .error (.noColumn colName)

/-- `build_table_fields.go:165-185` `getColumnReferenceColumnInfos` -/
def getColumnReferenceColumnInfos (ord : KeyOrder) (path : List Nat) (i : Info) (ext : OutMap)
    (c : FieldColumn) : Except Err (List ColInfo) :=
  if c.type = .subquery then .ok []
  else if c.type = .star then .ok []
  else if c.table = [] then getColumnInfos ord path i ext c.name
  else getReferencingColumnInfos i ext c

/-- `build_table_fields.go:78-85`: the uses added for one column. -/
def addInfos (type : FieldType) (cis : List ColInfo) (m : FieldMap) : FieldMap :=
  cis.foldl (fun m ci =>
    addReferencingField ci.tableName { table := ci.tableName, name := ci.name, type := type } m) m

/-- `build_table_fields.go:73-91`: the loop over the columns of one field.  Returns the collected
infos, the new reference map and the star tables added. -/
def columnLoop (ord : KeyOrder) (i : Info) (ext : OutMap) :
    List Nat → Nat → List FieldColumn → FieldMap → List Name →
      Except Err (List ColInfo × FieldMap × List Name)
  | _, _, [], m, stars => .ok ([], m, stars)
  | path, k, c :: cs, m, stars =>
    match getColumnReferenceColumnInfos ord (path ++ [k]) i ext c with
    | .error e => .error e
    | .ok cis =>
      match columnLoop ord i ext path (k + 1) cs (addInfos c.type cis m)
          (if c.type = .star then c.table :: stars else stars) with
      | .error e => .error e
      | .ok (rest, m', stars') => .ok (cis ++ rest, m', stars')

/-- `build_table_fields.go:70-97`: the loop over the fields. -/
def fieldLoop (ord : KeyOrder) (i : Info) (ext : OutMap) :
    List Nat → Nat → List Field → FieldMap → List Name →
      Except Err (List OutputCol × FieldMap × List Name)
  | _, _, [], m, stars => .ok ([], m, stars)
  | path, k, f :: fs, m, stars =>
    match columnLoop ord i ext (path ++ [k]) 0 f.columns m stars with
    | .error e => .error e
    | .ok (infos, m', stars') =>
      match fieldLoop ord i ext path (k + 1) fs m' stars' with
      | .error e => .error e
      | .ok (outs, m'', stars'') =>
        .ok ((if f.outName ≠ [] then [⟨f.outName, infos⟩] else []) ++ outs, m'', stars'')

/-- `build_table_fields.go:215-228`: the loop over the star tables in iteration order. -/
def starLoop (ord : KeyOrder) (i : Info) (ext : OutMap) :
    List Nat → Nat → List Name → Except Err (List OutputCol)
  | _, _, [] => .ok []
  | path, k, t :: ts =>
    if t = [] then
      match starLoop ord i ext path (k + 1) ts with
      | .error e => .error e
      | .ok rest =>
        .ok ((ord (path ++ [k]) (keys i.internalCols)).flatMap
          (fun n => (mapGet n i.internalCols).getD []) ++ rest)
    else
      match getTableColsFromAsName i ext t with
      | .error e => .error e
      | .ok cols =>
        match starLoop ord i ext path (k + 1) ts with
        | .error e => .error e
        | .ok rest => .ok (cols ++ rest)

/-- `build_table_fields.go:213-235` `listStarReferencingCols` -/
def listStar (ord : KeyOrder) (path : List Nat) (i : Info) (ext : OutMap) (stars : List Name)
    (found : List OutputCol) : Except Err (List OutputCol) :=
  match starLoop ord i ext path 1 (ord (path ++ [0]) (uniq stars)) with
  | .error e => .error e
  | .ok res =>
    .ok (uniqBy (·.name) (res.filter fun v => decide (v.name ∉ found.map (·.name))))

mutual

/-- `build_table_fields.go:35-106` `calculateReferences` -/
def calcRefs (ord : KeyOrder) (db : Name → Option TableSchema) :
    List Nat → OutMap → Scope → Except Err (List OutputCol × FieldMap)
  | path, ext, .mk _name fields fieldScopes tables subScopes =>
    match calcSubs ord db path 0 ext tables subScopes (newInfo db tables ext) with
    | .error e => .error e
    | .ok i =>
      match calcFieldScopes ord db path 0 (getVisibleColumns i) fieldScopes i with
      | .error e => .error e
      | .ok i =>
        match fieldLoop ord i ext (path ++ [2]) 0 fields i.refFields [] with
        | .error e => .error e
        | .ok (outs, m, stars) =>
          match listStar ord (path ++ [3]) i ext stars outs with
          | .error e => .error e
          | .ok fromStar => .ok (outs ++ fromStar, m)

/-- `build_table_fields.go:42-57`: the loop over the subqueries of FROM.  `tableMap[s.Name]` is the
last table of that name; a missing entry is a nil pointer. -/
def calcSubs (ord : KeyOrder) (db : Name → Option TableSchema) :
    List Nat → Nat → OutMap → List Table → List Scope → Info → Except Err Info
  | _, _, _, _, [], i => .ok i
  | path, k, ext, tables, s :: ss, i =>
    match tables.reverse.find? (·.name = s.name) with
    | none => .error .panic
    | some t =>
      match calcRefs ord db (path ++ [0, k]) (if t.isLateral then assign ext (getVisibleColumns i) else ext)
          s with
      | .error e => .error e
      | .ok (cols, new) =>
        calcSubs ord db path (k + 1) ext tables ss
          (addSubqueryInfo (ord (path ++ [4, k]) (keys new)) s.name t.asOrName cols new i)

/-- `build_table_fields.go:59-68`: the loop over the subqueries of expressions. -/
def calcFieldScopes (ord : KeyOrder) (db : Name → Option TableSchema) :
    List Nat → Nat → OutMap → List Scope → Info → Except Err Info
  | _, _, _, [], i => .ok i
  | path, k, visible, s :: ss, i =>
    match calcRefs ord db (path ++ [1, k]) visible s with
    | .error e => .error e
    | .ok (cols, new) =>
      calcFieldScopes ord db path (k + 1) visible ss
        (addSubqueryInfo (ord (path ++ [5, k]) (keys new)) s.name s.name cols new i)

end

/-- `build_table_fields.go:24-33` `buildTableFields` -/
def buildTableFields (ord : KeyOrder) (db : Name → Option TableSchema) (path : List Nat)
    (scope : Scope) : Except Err FieldMap :=
  match calcRefs ord db path [] scope with
  | .error e => .error e
  | .ok (_, m) => .ok m

end Verif.Fields
