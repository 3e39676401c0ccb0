import Verif.PgScope.Size
import Mathlib.Data.List.Forall2
/-!
# What the scopes of a query should say (specification)

Independent of the walker and of the collector: which columns and which subqueries a SELECT mentions at
its own level, and what its FROM items provide.
-/
namespace Verif.PgScope.Spec
open Verif.Builder Verif.Fields Verif.PgScope

/-! ## Queries considered -/

/-- a join operand or FROM item that is a subquery or a table name without the node for its alias (the
parser always makes that node) -/
def Bare : TableExpr → Prop
  | .subquery _ _ => True
  | .tableName _ _ _ => True
  | _ => False

/-- a body that is a parenthesised select -/
def ParenBody (b : Body) : Prop := ∃ s, b = .paren s

/-- What is required of each node. -/
inductive PlainNode : Nd → Prop where
  /-- a select without WITH whose body is a clause, no subquery in DISTINCT ON -/
  | s (id : Nat) (orderBy : List Expr) (limit : Limit) (exprs : List SelExpr)
      (tables : List TableExpr) (where_ : Option Expr) (groupBy : List Expr) (having : Option Expr)
      (window : Bool) (distinctOn : List Expr) :
      (∀ t ∈ tables, ¬Bare t) → (∀ e ∈ distinctOn, ∀ i b, ¬Below (.e e) (.e (.subquery i b))) →
      PlainNode (.s (.mk id none orderBy limit
        (.clause exprs tables where_ groupBy having window distinctOn)))
  | b (x : Body) : PlainNode (.b x)
  | nil : PlainNode (.e .nil)
  | leaf (known ok : Bool) : PlainNode (.e (.leaf known ok))
  | node (known : Bool) (kids : List Expr) : PlainNode (.e (.node known kids))
  | case (subject : Expr) (whens : List When) (els : Expr) : PlainNode (.e (.case subject whens els))
  /-- a window frame has both bounds -/
  | func (args : List Expr) (filter : Expr) (over : Over) (orderBy : List Expr) :
      (∀ ps os a z, over = .mk ps os (.mk a z) → a ≠ .none ∧ z ≠ .none) →
      PlainNode (.e (.func args filter over orderBy))
  | name (parts : List Str) (star : Bool) : PlainNode (.e (.name parts star))
  | unqualifiedStar : PlainNode (.e .unqualifiedStar)
  | tupleStar (e : Expr) : PlainNode (.e (.tupleStar e))
  | columnAccess (e : Expr) (col : Str) : PlainNode (.e (.columnAccess e col))
  | subquery (id : Nat) (b : Body) : ParenBody b → PlainNode (.e (.subquery id b))
  /-- an alias of something else than an alias or parentheses -/
  | aliased (t : TableExpr) (as : Str) (lateral : Bool) :
      (∀ t' a l, t ≠ .aliased t' a l) → (∀ t', t ≠ .paren t') → PlainNode (.t (.aliased t as lateral))
  | derived (id : Nat) (b : Body) : ParenBody b → PlainNode (.t (.subquery id b))
  | tableName (catalog schema table : Str) : PlainNode (.t (.tableName catalog schema table))
  | objectName (parts : List Str) : PlainNode (.t (.objectName parts))
  | statementSource : PlainNode (.t .statementSource)
  | tableRef : PlainNode (.t .tableRef)
  | join (l r : TableExpr) (c : Cond) : ¬Bare l → ¬Bare r → PlainNode (.t (.join l r c))
  | rowsFrom (items : List Expr) : PlainNode (.t (.rowsFrom items))

/-- A query without WITH, set operations, VALUES, parenthesised FROM items, subqueries in DISTINCT ON,
and with both bounds in window frames.  (Columns in resolved form, double aliases, and subqueries and
tables in FROM without the node for their alias are excluded too: the parser does not make them.) -/
def Plain (s : Select) : Prop := ∀ z, Below (.s s) z → PlainNode z

/-- All nodes, `x` first. -/
def nodes (x : Nd) : List Nd := x :: (kids x).attach.flatMap fun y => nodes y.1
termination_by sizeOf x
decreasing_by exact kids_sizeOf x y.1 y.2

/-- the identity of a select -/
def selId : Nd → Option Nat
  | .s x => some x.id
  | _ => none

/-- the identity of a subquery -/
def subId : Nd → Option Nat
  | .e (.subquery i _) => some i
  | .t (.subquery i _) => some i
  | _ => none

/-- The nodes of the tree are different objects: no pointer occurs twice. -/
def Fresh (s : Select) : Prop :=
  ((nodes (.s s)).filterMap selId).Nodup ∧ ((nodes (.s s)).filterMap subId).Nodup

/-! ## Mentions -/

/-- A column or a star. -/
inductive Ref where
  | column (table name : Str)
  | star (table : Str)
deriving DecidableEq, Repr

/-- a star -/
def isStar : Expr → Bool
  | .unqualifiedStar => true
  | _ => false

/-- the expressions of a frame bound -/
def boundExprs : Bound → List Expr
  | .none => []
  | .mk e => [e]

/-- the expressions of an OVER clause -/
def overExprs : Over → List Expr
  | .none => []
  | .mk ps os .none => ps ++ os
  | .mk ps os (.mk a z) => ps ++ os ++ boundExprs a ++ boundExprs z

/-- The operands of an expression, on the same query level; without the star of `count(*)`, and without
the table name of `(t).*` and `(t).c`. -/
def operands : Expr → List Expr
  | .node _ kids => kids
  | .case subject whens els => [subject, els] ++ whens.flatMap fun | .mk c v => [c, v]
  | .func args filter over orderBy =>
    args.filter (fun a => !isStar a) ++ [filter] ++ overExprs over ++ orderBy
  | .tupleStar (.name _ _) => []
  | .tupleStar e => [e]
  | .columnAccess (.name _ _) _ => []
  | .columnAccess e _ => [e]
  | _ => []

/-- The expression mentions a column or a star on its own query level. -/
inductive Mentions : Expr → Ref → Prop where
  | column (parts : List Str) : Mentions (.name parts false) (.column (part parts 1) (part parts 0))
  | star (parts : List Str) : Mentions (.name parts true) (.star (part parts 1))
  | all : Mentions .unqualifiedStar (.star [])
  | tuple (parts : List Str) (b : Bool) : Mentions (.tupleStar (.name parts b)) (.star (part parts 0))
  | access (parts : List Str) (b : Bool) (col : Str) :
      Mentions (.columnAccess (.name parts b) col) (.column (part parts 0) col)
  | operand (x y : Expr) (m : Ref) : y ∈ operands x → Mentions y m → Mentions x m

/-- The expression has a subquery on its own query level. -/
inductive Asks : Expr → Select → Prop where
  | subquery (i : Nat) (s : Select) : Asks (.subquery i (.paren s)) s
  | operand (x y : Expr) (s : Select) : y ∈ operands x → Asks y s → Asks x s

/-! ## A select -/

/-- the expressions of a join condition; `USING (c)` mentions `c` -/
def condPlaces (norm : Str → Str) : Cond → List (Str × FieldType × Expr)
  | .on e => [([], .condition, e)]
  | .using cols => cols.map fun c => ([], .condition, .name [norm c] false)
  | _ => []

/-- the expressions of a FROM item -/
def fromPlaces (norm : Str → Str) : TableExpr → List (Str × FieldType × Expr)
  | .aliased t _ _ => fromPlaces norm t
  | .join l r c => fromPlaces norm l ++ fromPlaces norm r ++ condPlaces norm c
  | .rowsFrom items => items.map fun e => ([], .reference, e)
  | _ => []

/-- The expressions of a select: name given by `AS`, use (`condition` in WHERE and ON), expression. -/
def places (norm : Str → Str) : Select → List (Str × FieldType × Expr)
  | .mk _ _ orderBy limit (.clause exprs tables where_ groupBy having _ _) =>
    (exprs.map fun | .mk e as => (as, .reference, e)) ++ tables.flatMap (fromPlaces norm) ++
      where_.toList.map (fun e => ([], .condition, e)) ++ groupBy.map (fun e => ([], .reference, e)) ++
      having.toList.map (fun e => ([], .reference, e)) ++ orderBy.map (fun e => ([], .reference, e)) ++
      (match limit with
        | .none => []
        | .mk count offset => [([], .reference, count), ([], .reference, offset)])
  | _ => []

/-- the FROM items -/
def fromItems : Select → List TableExpr
  | .mk _ _ _ _ (.clause _ tables _ _ _ _ _) => tables
  | _ => []

/-- the subqueries in a FROM item itself (derived tables) -/
def fromSubs : TableExpr → List Select
  | .aliased t _ _ => fromSubs t
  | .join l r _ => fromSubs l ++ fromSubs r
  | .subquery _ (.paren s) => [s]
  | _ => []

/-- the tables a FROM item provides; `ν` names derived tables -/
def fromTables (norm : Str → Str) (ν : Nat → Str) : TableExpr → List Table
  | .aliased (.tableName _ _ table) as _ => [⟨norm as, table, false⟩]
  | .aliased (.objectName parts) as _ => [⟨norm as, part parts 0, false⟩]
  | .aliased (.subquery _ (.paren s)) as lateral => [⟨norm as, ν s.id, lateral⟩]
  | .aliased (.join l r _) _ _ => fromTables norm ν l ++ fromTables norm ν r
  | .join l r _ => fromTables norm ν l ++ fromTables norm ν r
  | _ => []

/-- The columns that stand for an expression: one per column, star and subquery mentioned. -/
def ColumnOf (ν : Nat → Str) (ty : FieldType) (e : Expr) (c : FieldColumn) : Prop :=
  (∃ t n, Mentions e (.column t n) ∧ c = { table := t, name := n, type := ty }) ∨
  (∃ t, Mentions e (.star t) ∧ c = { table := t, name := [], type := .star }) ∨
  (∃ s, Asks e s ∧ c = { referenceName := ν s.id, table := [], name := [], type := .subquery })

/-- A field for an expression; an expression that is just a column gives a field with one column. -/
def FieldOf (ν : Nat → Str) (x : Str × FieldType × Expr) (f : Field) : Prop :=
  f.asName = x.1 ∧ (∀ c, c ∈ f.columns ↔ ColumnOf ν x.2.1 x.2.2 c) ∧
    ∀ parts, x.2.2 = .name parts false → f.columns.length = 1

/-- The scope describes the select: a field for each expression that mentions something, a field scope
for each subquery in an expression, a sub scope for each derived table, in the same way in turn, and the
tables of the FROM items that `pick` selects. -/
inductive Describes (pick : List TableExpr → List TableExpr) (norm : Str → Str) (ν : Nat → Str) :
    Select → Scope → Prop where
  | mk (s : Select) (all : List Field) (xs ys : List Select) (fs ss : List Scope) :
      List.Forall₂ (FieldOf ν) (places norm s) all →
      (∀ x, x ∈ xs ↔ ∃ p ∈ places norm s, Asks p.2.2 x) →
      (∀ y, y ∈ ys ↔ ∃ t ∈ fromItems s, y ∈ fromSubs t) →
      List.Forall₂ (Describes pick norm ν) xs fs →
      List.Forall₂ (Describes pick norm ν) ys ss →
      Describes pick norm ν s (.mk (ν s.id) (all.filter fun f => f.columns ≠ []) fs
        ((pick (fromItems s)).flatMap (fromTables norm ν)) ss)

/-- only the last FROM item -/
def lastItem (ts : List TableExpr) : List TableExpr := ts.getLast?.toList

/-- all FROM items -/
def allItems (ts : List TableExpr) : List TableExpr := ts

mutual

/-- the names of a scope and of all scopes in it -/
def scopeNames : Scope → List Str
  | .mk n _ fs _ ss => n :: (scopesNames fs ++ scopesNames ss)

/-- see `scopeNames` -/
def scopesNames : List Scope → List Str
  | [] => []
  | s :: r => scopeNames s ++ scopesNames r

end

/-- A scope whose references can be followed, as can those of the scopes in it: every subquery column
refers to a field scope, every field scope is referred to, and every sub scope has a table. -/
inductive Linked : Scope → Prop where
  | mk (n : Str) (fields : List Field) (fs : List Scope) (tables : List Table) (ss : List Scope) :
      (∀ f ∈ fields, ∀ c ∈ f.columns, c.type = .subquery → ∃ x ∈ fs, x.name = c.referenceName) →
      (∀ x ∈ fs, ∃ f ∈ fields, ∃ c ∈ f.columns, c.type = .subquery ∧ c.referenceName = x.name) →
      (∀ x ∈ ss, ∃ t ∈ tables, t.name = x.name) →
      (∀ x ∈ fs, Linked x) → (∀ x ∈ ss, Linked x) → Linked (.mk n fields fs tables ss)

/-- No select has a comma in FROM. -/
def SingleFrom (s : Select) : Prop := ∀ x, Below (.s s) (.s x) → (fromItems x).length ≤ 1

/-- a name with more parts than `n`, or whose part `n` is there and is not `schema` -/
def OtherSchema (schema : Str) (parts : List Str) (n : Nat) : Prop :=
  n + 1 < parts.length ∨ ∃ x, parts[n]? = some x ∧ x ≠ schema

/-- What is refused besides `Refused`: expressions that are not supported, names with another schema,
and WINDOW clauses. -/
inductive Unsupported (norm : Str → Str) (schema : Str) : Nd → Prop where
  | leaf (known : Bool) : Unsupported norm schema (.e (.leaf known false))
  | name (parts : List Str) (star : Bool) : OtherSchema schema parts 2 →
      Unsupported norm schema (.e (.name parts star))
  | tupleStar (parts : List Str) (star : Bool) : OtherSchema schema parts 1 →
      Unsupported norm schema (.e (.tupleStar (.name parts star)))
  | columnAccess (parts : List Str) (star : Bool) (c : Str) : OtherSchema schema parts 1 →
      Unsupported norm schema (.e (.columnAccess (.name parts star) c))
  | table (catalog sName table as : Str) (l : Bool) :
      (catalog ≠ [] ∨ (norm sName ≠ [] ∧ norm sName ≠ schema)) →
      Unsupported norm schema (.t (.aliased (.tableName catalog sName table) as l))
  | window (exprs : List SelExpr) (tables : List TableExpr) (where_ : Option Expr)
      (groupBy : List Expr) (having : Option Expr) (distinctOn : List Expr) :
      Unsupported norm schema (.b (.clause exprs tables where_ groupBy having true distinctOn))

end Verif.PgScope.Spec
