import Verif.Builder.Model
/-!
# What should be suggested
-/
namespace Verif.Builder.Spec
open Verif.Index

/-- Every order in which a set can be iterated: any rearrangement, possibly another at each call. -/
def AnyOrder (ord : Order) : Prop := ∀ path l, (ord path l).Perm l

/-- One way each column name is used. -/
def DistinctNames (cols : List FieldColumn) : Prop := (cols.map (·.name)).Nodup

/-- The efficient combinations of the used columns `cols`: duplicate-free non-empty sequences of
condition columns, or sequences of *all* used columns in which the condition columns come first (in
any order) and the plain references follow in name order.  Columns used in another way (aggregated)
are never part of a combination. -/
def Efficient (cols : List FieldColumn) (l : List FieldColumn) : Prop :=
  l ≠ [] ∧ l.Nodup ∧ (∀ c ∈ l, c ∈ cols) ∧
    ((∀ c ∈ l, c.type = .condition) ∨
     ((∀ c ∈ cols, c ∈ l) ∧ ∃ conds refs, l = conds ++ refs ∧
        (∀ c ∈ conds, c.type = .condition) ∧ (∀ c ∈ refs, c.type = .reference) ∧
        refs.Pairwise (fun a b => a.name ≤ b.name)))

/-- The schema that counts for table `t`: of several with the same name the last. -/
def SchemaOf (schemas : List TableSchema) (t : Name) (sch : TableSchema) : Prop :=
  ∃ before after, schemas = before ++ sch :: after ∧ sch.name = t ∧ ∀ s ∈ after, s.name ≠ t

/-- Order of the suggestion list: table, number of columns, column names. -/
def Before (a b : IndexTarget) : Prop :=
  a.tableName < b.tableName ∨ (a.tableName = b.tableName ∧
    (a.columns.length < b.columns.length ∨ (a.columns.length = b.columns.length ∧
      a.columns.map (·.name) ≤ b.columns.map (·.name))))

end Verif.Builder.Spec
