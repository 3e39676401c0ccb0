import Verif.Fields.Model
/-!
# PostgreSQL syntax trees and the order in which they are walked

The trees are those of `github.com/auxten/postgresql-parser` (`tree.Select` and below), restricted to
what `/repo/database/postgres/pservice/parser` and `/repo/database/postgres/pservice/ast` look at.
Node kinds that both the collectors and the walker treat alike share one constructor.  Pointers to
`*tree.Select` and `*tree.Subquery` are used as identities by the code; here these nodes carry a
number.
-/
namespace Verif.PgScope
open Verif.Builder Verif.Fields

/-- A Go string. -/
abbrev Str := Name

mutual

/-- `tree.Expr`.
* `nil`: the nil interface.
* `leaf known ok`: an expression without parts (constants, placeholders, `DEFAULT`, …); `known` says
  whether the walker knows it, `ok` whether `collectExprReferences` accepts it.
* `node known kids`: an expression whose operands `collectExprReferences` visits one after the other
  (`RangeCond`, `BinaryExpr`, `AndExpr`, `ComparisonExpr`, `CoalesceExpr`, `Tuple`, `CastExpr`, …) and
  which the walker either visits in the same order (`known`) or does not know (`IfExpr`,
  `IndirectionExpr`, `ArrayFlatten`, …).
* `name parts star`: `*tree.UnresolvedName` with its `NumParts` parts, last part of the name first.
* `func args filter over orderBy`: `*tree.FuncExpr`. -/
inductive Expr where
  | nil
  | leaf (known ok : Bool)
  | node (known : Bool) (kids : List Expr)
  | case (subject : Expr) (whens : List When) (els : Expr)
  | func (args : List Expr) (filter : Expr) (over : Over) (orderBy : List Expr)
  | name (parts : List Str) (star : Bool)
  | unqualifiedStar
  | tupleStar (e : Expr)
  | columnAccess (e : Expr) (col : Str)
  | allColumns (table : List Str)
  | columnItem (table : List Str) (col : Str)
  | subquery (id : Nat) (body : Body)

/-- `*tree.When` -/
inductive When where
  | mk (cond val : Expr)

/-- `*tree.WindowDef` of a function call; `none` is nil. -/
inductive Over where
  | none
  | mk (partitions orderBy : List Expr) (frame : Frame)

/-- `*tree.WindowFrame`; `none` is nil. -/
inductive Frame where
  | none
  | mk (start stop : Bound)

/-- `*tree.WindowFrameBound`; `none` is nil. -/
inductive Bound where
  | none
  | mk (offset : Expr)

/-- `tree.SelectExpr` -/
inductive SelExpr where
  | mk (e : Expr) (as : Str)

/-- `tree.TableExpr`: `AliasedTableExpr`, `Subquery`, `TableName`, `UnresolvedObjectName`,
`StatementSource`, `TableRef`, `ParenTableExpr`, `JoinTableExpr`, `RowsFromExpr`.  The operands of a
join are never nil. -/
inductive TableExpr where
  | aliased (e : TableExpr) (as : Str) (lateral : Bool)
  | subquery (id : Nat) (body : Body)
  | tableName (catalog schema table : Str)
  | objectName (parts : List Str)
  | statementSource
  | tableRef
  | paren (t : TableExpr)
  | join (left right : TableExpr) (cond : Cond)
  | rowsFrom (items : List Expr)

/-- `tree.JoinCond`; `none` is nil. -/
inductive Cond where
  | none
  | natural
  | on (e : Expr)
  | using (cols : List Str)

/-- `tree.SelectStatement`: `SelectClause`, `ParenSelect`, `UnionClause`, `ValuesClause` (its rows one
after the other).  In a clause the pointers `Where` and `Having` may be nil. -/
inductive Body where
  | clause (exprs : List SelExpr) (tables : List TableExpr) (where_ : Option Expr)
      (groupBy : List Expr) (having : Option Expr) (window : Bool) (distinctOn : List Expr)
  | paren (s : Select)
  | union (left right : Select)
  | values (rows : List Expr)

/-- `*tree.Select` with its identity.  `with_` is the `With` pointer (`none` when nil). -/
inductive Select where
  | mk (id : Nat) (with_ : Option (List Cte)) (orderBy : List Expr) (limit : Limit) (body : Body)

/-- `*tree.Limit`; `none` is nil. -/
inductive Limit where
  | none
  | mk (count offset : Expr)

/-- `*tree.CTE`: a name with a SELECT, or with another statement (which the walker does not know). -/
inductive Cte where
  | mk (name : Str) (s : Select)
  | other (name : Str)

end

/-- Field access. -/
def Select.id : Select → Nat | .mk i _ _ _ _ => i
/-- Field access. -/
def Select.body : Select → Body | .mk _ _ _ _ b => b
/-- Field access. -/
def Cte.name : Cte → Str | .mk n _ => n | .other n => n

/-- A call of the visitor made by the walker.  `plain` stands for the `Enter` and `Leave` of a node that
neither visitor looks at: only the emptiness of the scope stack at its `Leave` matters.  `unknown` is
the `Enter` and `Leave` of a node the walker does not know. -/
inductive Ev where
  | enterSelect (s : Select)
  | leaveSelect (s : Select)
  | enterSubquery (id : Nat) (body : Body)
  | leaveSubquery (id : Nat)
  | enterAliased (e : TableExpr) (as : Str)
  | plain
  | unknown

mutual

/-- `/repo/database/postgres/pservice/ast/ast_walker.go:53-266` for expressions.  `Enter` and `Leave`
of both visitors always return false, so the walk is never cut short and is the list of calls it
makes.  The separate calls for list wrappers (`tree.Exprs`, `tree.OrderBy`, `*tree.When`, …) and for
nil are left out: they come between calls for other nodes at the same depth of the scope stack. -/
def walkE : Expr → List Ev
  | .nil => [.plain]
  | .leaf known _ => if known then [.plain] else [.unknown]
  | .node known kids => if known then walkEs kids ++ [.plain] else [.unknown]
  | .case subject whens els => walkE subject ++ walkE els ++ walkWs whens ++ [.plain]
  | .func args filter over _ => walkOver over ++ walkEs args ++ walkE filter ++ [.plain]
  | .name _ _ => [.plain]
  | .unqualifiedStar => [.plain]
  | .tupleStar e => walkE e ++ [.plain]
  | .columnAccess e _ => walkE e ++ [.plain]
  | .allColumns _ => [.unknown]
  | .columnItem _ _ => [.unknown]
  | .subquery id body => [.enterSubquery id body] ++ walkB body ++ [.leaveSubquery id]

/-- `tree.Exprs` -/
def walkEs : List Expr → List Ev
  | [] => []
  | e :: es => walkE e ++ walkEs es

/-- `ast_walker.go:94-96` -/
def walkWs : List When → List Ev
  | [] => []
  | w :: ws => walkW w ++ walkWs ws

/-- `ast_walker.go:94-96` -/
def walkW : When → List Ev
  | .mk cond val => walkE cond ++ walkE val

/-- `ast_walker.go:228-232`: the ORDER BY of a window is not visited. -/
def walkOver : Over → List Ev
  | .none => []
  | .mk partitions _ frame => walkEs partitions ++ walkFrame frame ++ [.plain]

/-- `ast_walker.go:233-239` -/
def walkFrame : Frame → List Ev
  | .none => []
  | .mk start stop => walkBound start ++ walkBound stop ++ [.plain]

/-- `ast_walker.go:240-241` -/
def walkBound : Bound → List Ev
  | .none => []
  | .mk e => walkE e ++ [.plain]

/-- `ast_walker.go:189-194` -/
def walkSEs : List SelExpr → List Ev
  | [] => []
  | e :: es => walkSE e ++ walkSEs es

/-- `ast_walker.go:189-190` -/
def walkSE : SelExpr → List Ev
  | .mk e _ => walkE e ++ [.plain]

/-- `ast_walker.go:80-81,134-135,153-156,200-201,206` and the default case for table expressions. -/
def walkT : TableExpr → List Ev
  | .aliased e as _ => [.enterAliased e as] ++ walkT e ++ [.plain]
  | .subquery id body => [.enterSubquery id body] ++ walkB body ++ [.leaveSubquery id]
  | .tableName _ _ _ => [.plain]
  | .objectName _ => [.unknown]
  | .statementSource => [.unknown]
  | .tableRef => [.unknown]
  | .paren _ => [.unknown]
  | .join l r c => walkT l ++ walkT r ++ walkC c ++ [.plain]
  | .rowsFrom items => walkEs items ++ [.plain]

/-- `ast_walker.go:123-127` -/
def walkTs : List TableExpr → List Ev
  | [] => []
  | t :: ts => walkT t ++ walkTs ts

/-- `ast_walker.go:139-140` and the default case for the other join conditions. -/
def walkC : Cond → List Ev
  | .none => [.plain]
  | .natural => [.unknown]
  | .on e => walkE e ++ [.plain]
  | .using _ => [.unknown]

/-- an optional `*tree.Where`: `ast_walker.go:172-177,222-223` -/
def walkO : Option Expr → List Ev
  | .none => []
  | .some e => walkE e ++ [.plain]

/-- `ast_walker.go:151-152,170-188,214-215,218-221` -/
def walkB : Body → List Ev
  | .clause exprs tables where_ groupBy having _ distinctOn =>
    walkSEs exprs ++ walkO where_ ++ walkO having ++ walkEs distinctOn ++ walkEs groupBy ++
      walkTs tables ++ [.plain]
  | .paren s => walkS s ++ [.plain]
  | .union l r => walkS l ++ walkS r ++ [.plain]
  | .values rows => walkEs rows ++ [.plain]

/-- `ast_walker.go:157-167` -/
def walkS : Select → List Ev
  | .mk id with_ orderBy limit body =>
    [.enterSelect (.mk id with_ orderBy limit body)] ++ walkWith with_ ++ walkEs orderBy ++
      walkL limit ++ walkB body ++ [.leaveSelect (.mk id with_ orderBy limit body)]

/-- `ast_walker.go:158-160,242-245` -/
def walkWith : Option (List Cte) → List Ev
  | .none => []
  | .some cs => walkCtes cs ++ [.plain]

/-- `ast_walker.go:243-245` -/
def walkCtes : List Cte → List Ev
  | [] => []
  | c :: cs => walkCte c ++ walkCtes cs

/-- `ast_walker.go:115-116` -/
def walkCte : Cte → List Ev
  | .mk _ s => walkS s ++ [.plain]
  | .other _ => [.unknown, .plain]

/-- `ast_walker.go:168-169`: OFFSET is not visited. -/
def walkL : Limit → List Ev
  | .none => []
  | .mk count _ => walkE count ++ [.plain]

end

end Verif.PgScope
