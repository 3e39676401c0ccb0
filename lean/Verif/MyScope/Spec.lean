import Verif.MyScope.Model
import Mathlib.Data.List.Forall2
/-!
# What a MySQL query reads and mentions (specification)

Independent of the walk and of the collectors: only the children of each node are listed.
-/
namespace Verif.MyScope.Spec
open Verif.Builder Verif.Fields Verif.MyScope

/-- A node of a syntax tree. -/
inductive Nd where
  | e (x : Expr)
  | q (x : Query)
  | r (x : Ref)
  | j (x : Join)
  | s (x : Select)

/-- the query of a common table expression -/
def cteNd : Cte → Nd
  | .mk _ q => .q q

/-- the expression of a selected field -/
def fieldNds : SelField → List Nd
  | .expr e _ => [.e e]
  | .star _ => []

/-- the expressions of a LIMIT clause -/
def limitExprs : Limit → List Expr
  | .none => []
  | .mk count offset => [count, offset]

/-- the children of a node -/
def kids : Nd → List Nd
  | .e (.refused ks) => ks.map .e
  | .e (.node ks hs) => (ks ++ hs).map .e
  | .e (.matchAgainst _ a) => [.e a]
  | .e (.subquery q) => [.q q]
  | .e _ => []
  | .q (.select s) => [.s s]
  | .q (.setOpr w ps rest) => w.map cteNd ++ ps.map .q ++ rest.map .e
  | .r (.source (.select s) _) => [.s s]
  | .r (.source (.setOpr q) _) => [.q q]
  | .r (.source (.join j) _) => [.j j]
  | .r (.join j) => [.j j]
  | .r _ => []
  | .j (.mk l r on _) => [.r l, .r r] ++ on.toList.map .e
  | .s (.mk _ w fields from_ where_ groupBy having lists windows orderBy limit) =>
    (w.getD []).map cteNd ++ fields.flatMap fieldNds ++ from_.toList.map .j ++ where_.toList.map .e ++
      groupBy.map .e ++ having.toList.map .e ++ lists.map .e ++ (windows.getD []).map .e ++
      orderBy.map .e ++ (limitExprs limit).map .e

/-- the names a SELECT binds for everything in it -/
def selectBinds : Nd → List Str
  | .s s => (s.with_.getD []).map Cte.name
  | _ => []

/-- the names a node binds for everything in it: also those of a WITH in front of a set operation -/
def binds : Nd → List Str
  | .q (.setOpr w _ _) => w.map Cte.name
  | x => selectBinds x

/-- `Path b x ns z`: `z` is `x` or somewhere below it, and `ns` are the names bound, according to `b`, by
the nodes from `x` down to just above `z`. -/
inductive Path (b : Nd → List Str) : Nd → List Str → Nd → Prop where
  | refl (x : Nd) : Path b x [] x
  | step (x y z : Nd) (ns : List Str) : y ∈ kids x → Path b y ns z → Path b x (b x ++ ns) z

/-- `z` is `x` or below it. -/
inductive Below : Nd → Nd → Prop where
  | refl (x : Nd) : Below x x
  | step {x y z : Nd} : y ∈ kids x → Below y z → Below x z

/-- A table occurs in a FROM clause, anywhere in the statement, under a name that no WITH around it
binds. -/
def ReadsTable (norm : Str → Str) (s : Select) (name : Str) : Prop :=
  ∃ ns schema as, Path binds (.s s) ns (.r (.source (.table schema name) as)) ∧ norm name ∉ ns.map norm

/-- No set operation has a WITH clause of its own. -/
def NoWithOnSetOperations (s : Select) : Prop :=
  ∀ w ps rest, Below (.s s) (.q (.setOpr w ps rest)) → w = []

/-- FROM items that are refused: tables of a named database, set operations, joins as a table source. -/
inductive Refused : Nd → Prop where
  | table (schema name as : Str) : schema ≠ [] → Refused (.r (.source (.table schema name) as))
  | setOpr (q : Query) (as : Str) : Refused (.r (.source (.setOpr q) as))
  | join (j : Join) (as : Str) : Refused (.r (.source (.join j) as))
  | other (as : Str) : Refused (.r (.source .other as))

/-! ## Mentions -/

/-- The operands of an expression on the same query level, without those that `Expr.node` hides. -/
def operands : Expr → List Expr
  | .node ks _ => ks
  | .matchAgainst _ a => [a]
  | _ => []

/-- The expression mentions the column on its own query level. -/
inductive Mentions : Expr → Str → Str → Prop where
  | column (schema t n : Str) : Mentions (.column schema t n) t n
  | columns (cs : List (Str × Str)) (a : Expr) (t n : Str) : (t, n) ∈ cs →
      Mentions (.matchAgainst cs a) t n
  | operand (x y : Expr) (t n : Str) : y ∈ operands x → Mentions y t n → Mentions x t n

/-- The expression has a subquery on its own query level. -/
inductive Asks : Expr → Prop where
  | subquery (q : Query) : Asks (.subquery q)
  | operand (x y : Expr) : y ∈ operands x → Asks y → Asks x

/-- The expression contains a refused kind on its own query level. -/
inductive Refuses : Expr → Prop where
  | here (ks : List Expr) : Refuses (.refused ks)
  | operand (x y : Expr) : y ∈ operands x → Refuses y → Refuses x

/-! ## A select -/

/-- Something in a SELECT that gives a field. -/
inductive Item where
  | expr (e : Expr)
  | star (table : Str)

mutual

/-- the tables and derived tables of an operand of a join: alias and name (empty for a derived table),
left to right -/
def refTables (norm : Str → Str) : Ref → List Table
  | .source (.table _ name) as => [{ asName := norm as, name := norm name }]
  | .source (.select _) as => [{ asName := norm as, name := [] }]
  | .source (.join j) _ => joinTables norm j
  | .join j => joinTables norm j
  | _ => []

/-- see `refTables` -/
def joinTables (norm : Str → Str) : Join → List Table
  | .mk l r _ _ => refTables norm l ++ refTables norm r

end

mutual

/-- the join conditions in an operand of a join; `USING` is not among them -/
def refConds : Ref → List Expr
  | .source (.join j) _ => joinConds j
  | .join j => joinConds j
  | _ => []

/-- see `refConds` -/
def joinConds : Join → List Expr
  | .mk l r on _ => refConds l ++ refConds r ++ on.toList

end

/-- the name and content of a selected field -/
def fieldPlace (norm : Str → Str) : SelField → Str × FieldType × Item
  | .expr e as => (norm as, .reference, .expr e)
  | .star t => ([], .reference, .star (norm t))

/-- an expression in a clause without names -/
def plainPlace (ty : FieldType) (e : Expr) : Str × FieldType × Item := ([], ty, .expr e)

/-- The fields of a select: name given by `AS`, use (`condition` in WHERE and ON), content. -/
def places (norm : Str → Str) : Select → List (Str × FieldType × Item)
  | .mk _ _ fields from_ where_ groupBy having _ _ orderBy limit =>
    fields.map (fieldPlace norm) ++ (from_.toList.flatMap joinConds).map (plainPlace .condition) ++
      where_.toList.map (plainPlace .condition) ++ groupBy.map (plainPlace .reference) ++
      having.toList.map (plainPlace .reference) ++ orderBy.map (plainPlace .reference) ++
      (limitExprs limit).map (plainPlace .reference)

/-- the tables of FROM -/
def tablesOf (norm : Str → Str) : Select → List Table
  | .mk _ _ _ from_ _ _ _ _ _ _ _ => from_.toList.flatMap (joinTables norm)

/-- The columns that stand for the content of a field. -/
def ColumnOf (norm : Str → Str) (ty : FieldType) : Item → FieldColumn → Prop
  | .star t, c => c = { table := t, name := [], type := .star }
  | .expr e, c =>
    (∃ t n, Mentions e t n ∧ c = { table := norm t, name := norm n, type := ty }) ∨
    (Asks e ∧ c = { table := [], name := [], type := .subquery })

/-- A field for a place; a column alone gives a field with one column. -/
def FieldOf (norm : Str → Str) (x : Str × FieldType × Item) (f : Field) : Prop :=
  f.asName = x.1 ∧ (∀ c, c ∈ f.columns ↔ ColumnOf norm x.2.1 x.2.2 c) ∧
    ∀ sch t n, x.2.2 = .expr (.column sch t n) → f.columns.length = 1

/-- The scope describes the select, without anything of its subqueries: a field for each place that
mentions something, and the tables of FROM. -/
def Describes (norm : Str → Str) (s : Select) (sc : Scope) : Prop :=
  ∃ all, List.Forall₂ (FieldOf norm) (places norm s) all ∧
    sc = .mk "<root>".toList (all.filter fun f => f.columns ≠ []) [] (tablesOf norm s) []

/-- a FROM item, or an operand of a join in it, at this query level -/
inductive FromItem : Join → Ref → Prop where
  | left (l r : Ref) (on : Option Expr) (us : List Str) : FromItem (.mk l r on us) l
  | right (l r : Ref) (on : Option Expr) (us : List Str) : FromItem (.mk l r on us) r
  | join (j j' : Join) (x : Ref) : FromItem j (.join j') → FromItem j' x → FromItem j x
  | source (j j' : Join) (as : Str) (x : Ref) : FromItem j (.source (.join j') as) → FromItem j' x →
      FromItem j x

/-- FROM items that the scope collector refuses -/
inductive BadSource : Ref → Prop where
  | table (schema name as : Str) : schema ≠ [] → BadSource (.source (.table schema name) as)
  | setOpr (q : Query) (as : Str) : BadSource (.source (.setOpr q) as)
  | other (as : Str) : BadSource (.source .other as)
  | ref : BadSource .other

/-- the FROM clause of a select -/
def fromOf : Select → Option Join
  | .mk _ _ _ from_ _ _ _ _ _ _ _ => from_

/-- What is refused in a SELECT itself: a refused expression in one of its places, a refused FROM item, a
WINDOW clause. -/
inductive Faulty (norm : Str → Str) : Select → Prop where
  | expr (s : Select) (as : Str) (ty : FieldType) (e : Expr) : (as, ty, .expr e) ∈ places norm s →
      Refuses e → Faulty norm s
  | source (s : Select) (j : Join) (x : Ref) : fromOf s = some j → FromItem j x → BadSource x →
      Faulty norm s
  | window (v : Bool) (w : Option (List Cte)) (fields : List SelField) (from_ : Option Join)
      (where_ : Option Expr) (groupBy : List Expr) (having : Option Expr) (lists ws : List Expr)
      (orderBy : List Expr) (limit : Limit) :
      Faulty norm (.mk v w fields from_ where_ groupBy having lists (some ws) orderBy limit)

end Verif.MyScope.Spec
