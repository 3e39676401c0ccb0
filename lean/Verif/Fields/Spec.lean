import Verif.Fields.Model
/-!
# What names a query may use (specification)

`outer` are the table names (aliases) and `outerCols` the column names visible from enclosing queries.
-/
namespace Verif.Fields.Spec
open Verif.Builder Verif.Fields

/-- A column that exists in the database. -/
def Real (db : Name → Option TableSchema) (table col : Name) : Prop :=
  ∃ sch, db table = some sch ∧ col ∈ sch.columns

/-- A use of a column that must be resolved. -/
def IsUse (c : FieldColumn) : Prop := c.type ≠ .subquery ∧ c.type ≠ .star

/-- The name by which a FROM item is referred to: its alias if it has one. -/
def refName (t : Table) : Name :=
  match t.asName with
  | [] => t.name
  | a :: as => a :: as

/-- The name of the column an expression of SELECT makes: its alias, or the name of the column if it is
nothing but a column; others have none. -/
def label (f : Field) : Name :=
  match f.asName, f.columns with
  | a :: as, _ => a :: as
  | [], [c] => c.name
  | [], [] => []
  | [], _ :: _ :: _ => []

theorem asOrName_eq (t : Table) : t.asOrName = refName t := by
  obtain ⟨_ | _, n, l⟩ := t <;> simp [Table.asOrName, refName]

theorem outName_eq (f : Field) : f.outName = label f := by
  obtain ⟨_ | _, cs⟩ := f
  · rcases cs with _ | ⟨c, _ | ⟨d, cs⟩⟩ <;> simp [Field.outName, label]
  · simp [Field.outName, label]

/-- Names by which the FROM items of a query are referred to. -/
def aliases (tables : List Table) : List Name := tables.map refName

/-- Whether the FROM subquery `name` is LATERAL. -/
def Lateral (tables : List Table) (name : Name) : Prop :=
  ∃ t ∈ tables, t.name = name ∧ t.isLateral = true

instance (tables : List Table) (name : Name) : Decidable (Lateral tables name) := by
  unfold Lateral; infer_instance

mutual

/-- Every qualified column and every `x.*` of the query and of its subqueries, at any depth, names a
FROM item of its own query, a subquery of its own query, or a FROM item visible from outside.
Expression subqueries see the FROM items of the query around them; FROM subqueries see only what
their query sees from outside, plus its FROM items when LATERAL. -/
def TablesDefined (outer : List Name) : Scope → Prop
  | .mk _ fields fieldScopes tables subScopes =>
    (∀ f ∈ fields, ∀ c ∈ f.columns, c.type ≠ .subquery → c.table ≠ [] →
      c.table ∈ outer ++ aliases tables ++ fieldScopes.map (·.name)) ∧
    TablesDefinedSub outer tables subScopes ∧
    TablesDefinedAll (outer ++ aliases tables) fieldScopes

/-- see `TablesDefined` -/
def TablesDefinedSub (outer : List Name) (tables : List Table) : List Scope → Prop
  | [] => True
  | s :: ss =>
    TablesDefined (if Lateral tables s.name then outer ++ aliases tables else outer) s ∧ TablesDefinedSub outer tables ss

/-- see `TablesDefined` -/
def TablesDefinedAll (outer : List Name) : List Scope → Prop
  | [] => True
  | s :: ss => TablesDefined outer s ∧ TablesDefinedAll outer ss

end

/-- Columns of the real tables in a FROM clause. -/
def tableCols (db : Name → Option TableSchema) (tables : List Table) : List Name :=
  tables.flatMap fun t => ((db t.name).map (·.columns)).getD []

/-- Whether `*` or `x.*` is selected. -/
def HasStar (fields : List Field) : Prop := ∃ f ∈ fields, ∃ c ∈ f.columns, c.type = .star

instance (fields : List Field) : Decidable (HasStar fields) := by unfold HasStar; infer_instance

/-- The names a query's FROM clause brings, besides those of its subqueries: what is visible from
outside, the aliases and the real columns. -/
def fromNames (db : Name → Option TableSchema) (outer : List Name) (tables : List Table) : List Name :=
  outer ++ aliases tables ++ tableCols db tables

mutual

/-- Names of the columns a query returns, given the names visible from outside. -/
def provides (db : Name → Option TableSchema) (outer : List Name) : Scope → List Name
  | .mk _ fields fieldScopes tables subScopes =>
    fields.map label ++
      if HasStar fields then
        providesAll db (providesSub db outer tables (fromNames db outer tables) subScopes)
          (providesSub db outer tables (fromNames db outer tables) subScopes ++
            fieldScopes.map (·.name)) fieldScopes
      else []

/-- `acc` extended with what the FROM subqueries return. A LATERAL one sees the FROM items to its
left. -/
def providesSub (db : Name → Option TableSchema) (outer : List Name) (tables : List Table) :
    List Name → List Scope → List Name
  | acc, [] => acc
  | acc, s :: ss =>
    providesSub db outer tables
      (acc ++ provides db (if Lateral tables s.name then acc else outer) s) ss

/-- `acc` extended with what the expression subqueries return. -/
def providesAll (db : Name → Option TableSchema) (visible : List Name) :
    List Name → List Scope → List Name
  | acc, [] => acc
  | acc, s :: ss => providesAll db visible (acc ++ provides db visible s) ss

end

/-- Names visible in a query's FROM items. -/
def visibleNames (db : Name → Option TableSchema) (outer : List Name) : Scope → List Name
  | .mk _ _ _ tables subScopes => providesSub db outer tables (fromNames db outer tables) subScopes

/-- Names a query's own expressions may use. -/
def ownNames (db : Name → Option TableSchema) (outer : List Name) : Scope → List Name
  | .mk n fields fieldScopes tables subScopes =>
    providesAll db (visibleNames db outer (.mk n fields fieldScopes tables subScopes))
      (visibleNames db outer (.mk n fields fieldScopes tables subScopes) ++ fieldScopes.map (·.name))
      fieldScopes

mutual

/-- Every column used by the query, and by its subqueries at any depth, is a column of a real table
in FROM, a column returned by a subquery, an alias, or a name visible from outside. -/
def ColumnsDefined (db : Name → Option TableSchema) (outer : List Name) : Scope → Prop
  | .mk n fields fieldScopes tables subScopes =>
    (∀ f ∈ fields, ∀ c ∈ f.columns, IsUse c →
      c.name ∈ ownNames db outer (.mk n fields fieldScopes tables subScopes)) ∧
    ColumnsDefinedSub db outer tables (fromNames db outer tables) subScopes ∧
    ColumnsDefinedAll db (visibleNames db outer (.mk n fields fieldScopes tables subScopes))
      fieldScopes

/-- see `ColumnsDefined` -/
def ColumnsDefinedSub (db : Name → Option TableSchema) (outer : List Name) (tables : List Table) :
    List Name → List Scope → Prop
  | _, [] => True
  | acc, s :: ss =>
    ColumnsDefined db (if Lateral tables s.name then acc else outer) s ∧
    ColumnsDefinedSub db outer tables
      (acc ++ provides db (if Lateral tables s.name then acc else outer) s) ss

/-- see `ColumnsDefined` -/
def ColumnsDefinedAll (db : Name → Option TableSchema) (visible : List Name) : List Scope → Prop
  | [] => True
  | s :: ss => ColumnsDefined db visible s ∧ ColumnsDefinedAll db visible ss

end

end Verif.Fields.Spec
