import Verif.Fields.Model
/-!
# MySQL syntax trees and the order in which they are walked

The trees are those of `github.com/pingcap/tidb/parser/ast`, restricted to what
`/repo/database/mysql/mservice/parser` looks at.  Node kinds that both collectors and the library's
`Accept` treat alike share one constructor.  The order in which `Accept` visits the children is that of
the library (its source is not in `/repo`); a name is a `model.CIStr`, whose lower-case form is `norm` of
what is written.
-/
namespace Verif.MyScope
open Verif.Builder Verif.Fields

/-- A Go string. -/
abbrev Str := Name

mutual

/-- `ast.ExprNode`.
* `nil`: the nil interface.
* `const`: values, `?`, time units and the like (`collect_stmt_scopes.go:254-256,284-291`).
* `refused kids`: `TableNameExpr`, `DefaultExpr`, `ValuesExpr`, `MaxValueExpr` and the kinds of the
  default case (199-200,203-204,234-235,238-240,292-297).
* `node kids hidden`: an expression whose parts `kids` are looked at one after the other
  (`BetweenExpr`, `BinaryOperationExpr`, `CaseExpr`, `PatternInExpr`, `FuncCallExpr`, …) and whose parts
  `hidden` are not: the operand of `COLLATE` (246-247), the value assigned to a variable (236-237), the
  `?` of a position (222-224), the `ORDER BY` of an aggregate (257-260) and the frame of a window
  function (261-283).
* `column`: `ColumnNameExpr` (201-202).
* `matchAgainst`: (241-245). -/
inductive Expr where
  | nil
  | const
  | refused (kids : List Expr)
  | node (kids hidden : List Expr)
  | column (schema table name : Str)
  | matchAgainst (columns : List (Str × Str)) (against : Expr)
  | subquery (q : Query)

/-- `ast.SubqueryExpr.Query`: a `SelectStmt`, or a `SetOprStmt` (with its nested `SetOprSelectList`s),
whose `rest` is ORDER BY and LIMIT. -/
inductive Query where
  | select (s : Select)
  | setOpr (with_ : List Cte) (parts : List Query) (rest : List Expr)

/-- `ast.CommonTableExpression` -/
inductive Cte where
  | mk (name : Str) (q : Query)

/-- `ast.ResultSetNode` as an operand of a join: nil, a `TableSource`, a `Join` or something else. -/
inductive Ref where
  | nil
  | source (src : Src) (as : Str)
  | join (j : Join)
  | other

/-- `ast.TableSource.Source` -/
inductive Src where
  | table (schema name : Str)
  | select (s : Select)
  | setOpr (q : Query)
  | join (j : Join)
  | other

/-- `*ast.Join`; a table alone is a join without right operand.  `on` is `j.On.Expr`. -/
inductive Join where
  | mk (left right : Ref) (on : Option Expr) (using_ : List Str)

/-- `*ast.SelectField`: an expression or `*`, `t.*` -/
inductive SelField where
  | expr (e : Expr) (as : Str)
  | star (table : Str)

/-- `*ast.SelectStmt`.  `values` is `Kind == SelectStmtKindValues`, `lists` are its rows; `windows` is
`WindowSpecs` with the expressions in it.  The parser never leaves `Fields` nil: `TABLE t` and `VALUES …`
have the field `*`. -/
inductive Select where
  | mk (values : Bool) (with_ : Option (List Cte)) (fields : List SelField) (from_ : Option Join)
      (where_ : Option Expr) (groupBy : List Expr) (having : Option Expr) (lists : List Expr)
      (windows : Option (List Expr)) (orderBy : List Expr) (limit : Limit)

/-- `*ast.Limit`; `none` is nil. -/
inductive Limit where
  | none
  | mk (count offset : Expr)

end

/-- Field access. -/
def Cte.name : Cte → Str | .mk n _ => n
/-- Field access. -/
def Select.with_ : Select → Option (List Cte) | .mk _ w _ _ _ _ _ _ _ _ _ => w

/-- A call of a visitor for a node it looks at. -/
inductive Ev where
  | enter (s : Select)
  | leave (s : Select)
  | source (src : Src) (as : Str)

mutual

/-- `Accept` of expressions.  `Enter` of both visitors returns false and `Leave` true, so the walk is
never cut short and is the list of calls it makes. -/
def walkE : Expr → List Ev
  | .nil => []
  | .const => []
  | .refused kids => walkEs kids
  | .node kids hidden => walkEs kids ++ walkEs hidden
  | .column _ _ _ => []
  | .matchAgainst _ against => walkE against
  | .subquery q => walkQ q

/-- one after the other -/
def walkEs : List Expr → List Ev
  | [] => []
  | e :: es => walkE e ++ walkEs es

/-- an optional expression -/
def walkO : Option Expr → List Ev
  | .none => []
  | .some e => walkE e

/-- `SetOprStmt.Accept`, `SetOprSelectList.Accept` -/
def walkQ : Query → List Ev
  | .select s => walkS s
  | .setOpr w parts rest => walkCtes w ++ walkQs parts ++ walkEs rest

/-- one after the other -/
def walkQs : List Query → List Ev
  | [] => []
  | q :: qs => walkQ q ++ walkQs qs

/-- `WithClause.Accept` -/
def walkCtes : List Cte → List Ev
  | [] => []
  | c :: cs => walkCte c ++ walkCtes cs

/-- `CommonTableExpression.Accept` -/
def walkCte : Cte → List Ev
  | .mk _ q => walkQ q

/-- an operand of a join; `TableSource.Accept` -/
def walkR : Ref → List Ev
  | .nil => []
  | .source src as => [.source src as] ++ walkSrc src
  | .join j => walkJ j
  | .other => []

/-- the source of a table -/
def walkSrc : Src → List Ev
  | .table _ _ => []
  | .select s => walkS s
  | .setOpr q => walkQ q
  | .join j => walkJ j
  | .other => []

/-- `Join.Accept` -/
def walkJ : Join → List Ev
  | .mk l r on _ => walkR l ++ walkR r ++ walkO on

/-- `FieldList.Accept` -/
def walkFs : List SelField → List Ev
  | [] => []
  | f :: fs => walkF f ++ walkFs fs

/-- `SelectField.Accept` -/
def walkF : SelField → List Ev
  | .expr e _ => walkE e
  | .star _ => []

/-- `SelectStmt.Accept` -/
def walkS : Select → List Ev
  | .mk values w fields from_ where_ groupBy having lists windows orderBy limit =>
    [.enter (.mk values w fields from_ where_ groupBy having lists windows orderBy limit)] ++
      walkW w ++ walkFs fields ++ walkFrom from_ ++ walkO where_ ++ walkEs groupBy ++ walkO having ++
      walkEs lists ++ walkWin windows ++ walkEs orderBy ++ walkL limit ++
      [.leave (.mk values w fields from_ where_ groupBy having lists windows orderBy limit)]

/-- an optional WITH clause -/
def walkW : Option (List Cte) → List Ev
  | .none => []
  | .some cs => walkCtes cs

/-- an optional FROM clause -/
def walkFrom : Option Join → List Ev
  | .none => []
  | .some j => walkJ j

/-- the window specifications -/
def walkWin : Option (List Expr) → List Ev
  | .none => []
  | .some es => walkEs es

/-- `Limit.Accept` -/
def walkL : Limit → List Ev
  | .none => []
  | .mk count offset => walkE count ++ walkE offset

end

/-- The root: `SelectStmt`, `SetOprStmt` or another statement. -/
inductive Stmt where
  | select (s : Select)
  | setOpr
  | other

end Verif.MyScope
