import Verif.PgScope.Model
/-!
# What a query reads (specification)

Independent of the walker and of the collectors: only the children of each node are listed.
-/
namespace Verif.PgScope.Spec
open Verif.Builder Verif.PgScope

/-- A node of a syntax tree. -/
inductive Nd where
  | e (x : Expr)
  | t (x : TableExpr)
  | b (x : Body)
  | s (x : Select)
  | c (x : Cte)

/-- the expressions of a frame bound -/
def boundKids : Bound → List Nd
  | .none => []
  | .mk e => [.e e]

/-- the expressions of an OVER clause that are not in its ORDER BY -/
def overKids : Over → List Nd
  | .none => []
  | .mk ps _ .none => ps.map .e
  | .mk ps _ (.mk a z) => ps.map .e ++ (boundKids a ++ boundKids z)

/-- the expressions in the ORDER BY of an OVER clause -/
def overOrder : Over → List Nd
  | .none => []
  | .mk _ os _ => os.map .e

/-- the children of a node in the three places that are treated specially: OFFSET, the ORDER BY inside
the arguments of a function and the ORDER BY of a window -/
def remote : Nd → List Nd
  | .e (.func _ _ over orderBy) => overOrder over ++ orderBy.map .e
  | .s (.mk _ _ _ (.mk _ offset) _) => [.e offset]
  | _ => []

/-- the other children of a node -/
def near : Nd → List Nd
  | .e (.node _ kids) => kids.map .e
  | .e (.case subject whens els) =>
    [.e subject, .e els] ++ whens.flatMap fun | .mk c v => [.e c, .e v]
  | .e (.func args filter over _) => overKids over ++ args.map .e ++ [.e filter]
  | .e (.tupleStar x) => [.e x]
  | .e (.columnAccess x _) => [.e x]
  | .e (.subquery _ b) => [.b b]
  | .e _ => []
  | .t (.aliased x _ _) => [.t x]
  | .t (.subquery _ b) => [.b b]
  | .t (.paren x) => [.t x]
  | .t (.join l r (.on c)) => [.t l, .t r, .e c]
  | .t (.join l r _) => [.t l, .t r]
  | .t (.rowsFrom items) => items.map .e
  | .t _ => []
  | .b (.clause exprs tables where_ groupBy having _ distinctOn) =>
    (exprs.map fun | .mk x _ => .e x) ++ where_.toList.map .e ++ having.toList.map .e ++
      distinctOn.map .e ++ groupBy.map .e ++ tables.map .t
  | .b (.paren s) => [.s s]
  | .b (.union l r) => [.s l, .s r]
  | .b (.values rows) => rows.map .e
  | .s (.mk _ w orderBy limit body) =>
    (w.getD []).map .c ++ orderBy.map .e ++
      (match limit with | .none => [] | .mk count _ => [.e count]) ++ [.b body]
  | .c (.mk _ s) => [.s s]
  | .c (.other _) => []

/-- the children of a node -/
def kids (x : Nd) : List Nd := near x ++ remote x

/-- the names a node binds for everything below it -/
def binds : Nd → List Str
  | .s (.mk _ (some cs) _ _ _) => cs.map Cte.name
  | _ => []

/-- `Path x ns z`: `z` is `x` or somewhere below it, and `ns` are the names bound by the WITH clauses of
the selects from `x` down to just above `z`. -/
inductive Path : Nd → List Str → Nd → Prop where
  | refl (x : Nd) : Path x [] x
  | step (x y z : Nd) (ns : List Str) : y ∈ kids x → Path y ns z → Path x (binds x ++ ns) z

/-- `z` is `x` or below it. -/
def Below (x z : Nd) : Prop := ∃ ns, Path x ns z

/-- A table occurs in a FROM clause, anywhere in the statement, under a name that no WITH around it
binds. -/
def ReadsTable (norm : Str → Str) (s : Select) (table : Str) : Prop :=
  ∃ ns catalog schema as lateral,
    Path (.s s) ns (.t (.aliased (.tableName catalog schema table) as lateral)) ∧
      norm table ∉ ns.map norm

/-- No subquery stands in an OFFSET, in the ORDER BY inside the arguments of a function or in the ORDER
BY of a window. -/
def NoRemoteSubquery (s : Select) : Prop :=
  ∀ x y id b, Below (.s s) x → y ∈ remote x → ¬Below y (.e (.subquery id b))

/-- The kinds of nodes that are refused: some expressions, columns in resolved form, joins with `NATURAL`
or `USING`, parenthesised FROM items, `[ … ]` sources, numeric table references and non-SELECT statements
in WITH. -/
inductive Refused : Nd → Prop where
  | leaf (ok : Bool) : Refused (.e (.leaf false ok))
  | node (ks : List Expr) : Refused (.e (.node false ks))
  | allColumns (t : List Str) : Refused (.e (.allColumns t))
  | columnItem (t : List Str) (c : Str) : Refused (.e (.columnItem t c))
  | objectName (ps : List Str) : Refused (.t (.objectName ps))
  | statementSource : Refused (.t .statementSource)
  | tableRef : Refused (.t .tableRef)
  | paren (t : TableExpr) : Refused (.t (.paren t))
  | natural (l r : TableExpr) : Refused (.t (.join l r .natural))
  | using (l r : TableExpr) (cs : List Str) : Refused (.t (.join l r (.using cs)))
  | cte (n : Str) : Refused (.c (.other n))

/-- The rearrangements a map iteration may make. -/
def AnyOrder (ord : List Str → List Str) : Prop := ∀ l, (ord l).Perm l

end Verif.PgScope.Spec
