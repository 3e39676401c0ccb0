import Verif.PgScope.Model
/-!
# The collectors and the walk as flat lists (helper definitions and lemmas)
-/
namespace Verif.PgScope
open Verif.Builder Verif.Fields Verif.Lib

/-- one contribution of an expression -/
inductive CItem where
  | col (c : FieldColumn)
  | sub (b : Body)
  | err (e : Err)
  | panic

mutual

/-- the contributions of an expression, in the order in which they are collected -/
def citemsE (norm : Str → Str) (schema : Str) (ty : FieldType) : Expr → List CItem
  | .nil => []
  | .leaf _ ok => if ok then [] else [.err .unsupportedExpr]
  | .node _ kids => citemsEs norm schema ty kids
  | .case subject whens els =>
    citemsE norm schema ty subject ++ (citemsWs norm schema ty whens ++ citemsE norm schema ty els)
  | .func args filter over orderBy =>
    citemsArgs norm schema ty args ++ (citemsE norm schema ty filter ++
      (citemsOver norm schema ty over ++ citemsEs norm schema ty orderBy))
  | .name parts star =>
    if schemaSpecified schema parts 2 then [.err .explicitSchema]
    else if star then [.col { table := part parts 1, name := [], type := .star }]
    else [.col { table := part parts 1, name := part parts 0, type := ty }]
  | .unqualifiedStar => [.col { table := [], name := [], type := .star }]
  | .tupleStar (.name parts _) =>
    if schemaSpecified schema parts 1 then [.err .schemaInTuple]
    else [.col { table := part parts 0, name := [], type := .star }]
  | .tupleStar e => citemsE norm schema ty e
  | .columnAccess (.name parts _) col =>
    if schemaSpecified schema parts 1 then [.err .schemaInTuple]
    else [.col { table := part parts 0, name := col, type := ty }]
  | .columnAccess e _ => citemsE norm schema ty e
  | .allColumns table =>
    if schemaSpecified schema table 1 then [.err .explicitSchema]
    else [.col { table := part table 0, name := [], type := .star }]
  | .columnItem table col =>
    if schemaSpecified schema table 1 then [.err .explicitSchema]
    else [.col { table := part table 0, name := norm col, type := .reference }]
  | .subquery _ body => [.sub body]

/-- see `citemsE` -/
def citemsEs (norm : Str → Str) (schema : Str) (ty : FieldType) : List Expr → List CItem
  | [] => []
  | e :: es => citemsE norm schema ty e ++ citemsEs norm schema ty es

/-- see `citemsE` -/
def citemsArgs (norm : Str → Str) (schema : Str) (ty : FieldType) : List Expr → List CItem
  | [] => []
  | .unqualifiedStar :: es => citemsArgs norm schema ty es
  | e :: es => citemsE norm schema ty e ++ citemsArgs norm schema ty es

/-- see `citemsE` -/
def citemsWs (norm : Str → Str) (schema : Str) (ty : FieldType) : List When → List CItem
  | [] => []
  | w :: ws => citemsW norm schema ty w ++ citemsWs norm schema ty ws

/-- see `citemsE` -/
def citemsW (norm : Str → Str) (schema : Str) (ty : FieldType) : When → List CItem
  | .mk cond val => citemsE norm schema ty cond ++ citemsE norm schema ty val

/-- see `citemsE` -/
def citemsOver (norm : Str → Str) (schema : Str) (ty : FieldType) : Over → List CItem
  | .none => []
  | .mk partitions orderBy frame =>
    citemsEs norm schema ty partitions ++ (citemsEs norm schema ty orderBy ++
      citemsFrame norm schema ty frame)

/-- see `citemsE` -/
def citemsFrame (norm : Str → Str) (schema : Str) (ty : FieldType) : Frame → List CItem
  | .none => []
  | .mk start stop => citemsBound norm schema ty start ++ citemsBound norm schema ty stop

/-- see `citemsE` -/
def citemsBound (norm : Str → Str) (schema : Str) (ty : FieldType) : Bound → List CItem
  | .none => [.panic]
  | .mk e => citemsE norm schema ty e

end

/-- collecting a list of contributions -/
def runC : List CItem → St → Cols
  | [], st => nothing st
  | .col c :: r, st => andThen (.ok ([c], st)) (runC r)
  | .sub b :: r, st => andThen (subqueryRefs b st) (runC r)
  | .err e :: r, st => andThen (failWith e st) (runC r)
  | .panic :: _, _ => .error .panic

theorem andThen_nil (r : Cols) : andThen r nothing = r := by
  rcases r with e | ⟨a, st⟩
  · rfl
  · simp [andThen, nothing]

theorem nothing_andThen (st : St) (f : St → Cols) : andThen (nothing st) f = f st := by
  simp only [andThen, nothing]
  rcases f st with e | ⟨a, st⟩
  · rfl
  · simp

theorem andThen_assoc (r : Cols) (f g : St → Cols) :
    andThen (andThen r f) g = andThen r fun st => andThen (f st) g := by
  rcases r with e | ⟨a, st⟩
  · rfl
  · simp only [andThen]
    rcases f st with e | ⟨b, st1⟩
    · rfl
    · simp only
      rcases g st1 with e | ⟨c, st2⟩
      · rfl
      · simp

theorem runC_append (a b : List CItem) (st : St) : runC (a ++ b) st = andThen (runC a st) (runC b) := by
  induction a generalizing st with
  | nil => rw [runC, List.nil_append, nothing_andThen]
  | cons x r ih =>
    have ih' : runC (r ++ b) = fun st => andThen (runC r st) (runC b) := funext ih
    cases x <;> simp only [List.cons_append, runC, ih', andThen_assoc]
    · rfl

theorem runC_single_col (c : FieldColumn) (st : St) : runC [.col c] st = .ok ([c], st) := by
  simp only [runC]; rfl

theorem runC_single_err (e : Err) (st : St) : runC [.err e] st = failWith e st := by
  simp only [runC]; rfl

theorem runC_single_sub (b : Body) (st : St) : runC [.sub b] st = subqueryRefs b st := by
  simp only [runC]; exact andThen_nil _

theorem runC_nil (st : St) : runC [] st = nothing st := rfl

mutual

theorem collectE_eq (norm : Str → Str) (schema : Str) (ty : FieldType) : ∀ (e : Expr) (st : St),
    collectE norm schema ty e st = runC (citemsE norm schema ty e) st
  | .nil, st => by rw [collectE, citemsE, runC]
  | .leaf _ ok, st => by
    rw [collectE, citemsE]
    cases ok
    · simp only [Bool.false_eq_true, if_false]; exact (runC_single_err _ _).symm
    · rfl
  | .node _ kids, st => by rw [collectE, citemsE, collectEs_eq]
  | .case subject whens els, st => by
    rw [collectE, citemsE, runC_append, collectE_eq]
    congr 1; funext st1
    rw [runC_append, collectWs_eq]
    congr 1; funext st2
    rw [collectE_eq]
  | .func args filter over orderBy, st => by
    rw [collectE, citemsE, runC_append, collectArgs_eq]
    congr 1; funext st1
    rw [runC_append, collectE_eq]
    congr 1; funext st2
    rw [runC_append, collectOver_eq]
    congr 1; funext st3
    rw [collectEs_eq]
  | .name parts star, st => by
    rw [collectE, citemsE, nameRefs]
    split
    · exact (runC_single_err _ _).symm
    · split
      · exact (runC_single_col _ _).symm
      · exact (runC_single_col _ _).symm
  | .unqualifiedStar, st => by rw [collectE, citemsE]; exact (runC_single_col _ _).symm
  | .tupleStar e, st => by
    cases e with
    | name parts star =>
      rw [collectE, citemsE, tupleStarName]
      split
      · exact (runC_single_err _ _).symm
      · exact (runC_single_col _ _).symm
    | _ => rw [collectE, citemsE, collectE_eq] <;> (intros; contradiction)
  | .columnAccess e col, st => by
    cases e with
    | name parts star =>
      rw [collectE, citemsE, columnAccessName]
      split
      · exact (runC_single_err _ _).symm
      · exact (runC_single_col _ _).symm
    | _ => rw [collectE, citemsE, collectE_eq] <;> (intros; contradiction)
  | .allColumns table, st => by
    rw [collectE, citemsE, allColumnsRefs]
    split
    · exact (runC_single_err _ _).symm
    · exact (runC_single_col _ _).symm
  | .columnItem table col, st => by
    rw [collectE, citemsE, columnItemRefs]
    split
    · exact (runC_single_err _ _).symm
    · exact (runC_single_col _ _).symm
  | .subquery _ body, st => by rw [collectE, citemsE]; exact (runC_single_sub _ _).symm

theorem collectEs_eq (norm : Str → Str) (schema : Str) (ty : FieldType) : ∀ (es : List Expr) (st : St),
    collectEs norm schema ty es st = runC (citemsEs norm schema ty es) st
  | [], st => by rw [collectEs, citemsEs, runC]
  | e :: es, st => by
    rw [collectEs, citemsEs, runC_append, collectE_eq]
    congr 1; funext st1
    rw [collectEs_eq]

theorem collectArgs_eq (norm : Str → Str) (schema : Str) (ty : FieldType) :
    ∀ (es : List Expr) (st : St),
    collectArgs norm schema ty es st = runC (citemsArgs norm schema ty es) st
  | [], st => by rw [collectArgs, citemsArgs, runC]
  | e :: es, st => by
    cases e with
    | unqualifiedStar => rw [collectArgs, citemsArgs, collectArgs_eq]
    | _ =>
      rw [collectArgs, citemsArgs, runC_append, collectE_eq]
      · congr 1; funext st1
        rw [collectArgs_eq]
      all_goals (intros; contradiction)

theorem collectWs_eq (norm : Str → Str) (schema : Str) (ty : FieldType) : ∀ (ws : List When) (st : St),
    collectWs norm schema ty ws st = runC (citemsWs norm schema ty ws) st
  | [], st => by rw [collectWs, citemsWs, runC]
  | w :: ws, st => by
    rw [collectWs, citemsWs, runC_append, collectW_eq]
    congr 1; funext st1
    rw [collectWs_eq]

theorem collectW_eq (norm : Str → Str) (schema : Str) (ty : FieldType) : ∀ (w : When) (st : St),
    collectW norm schema ty w st = runC (citemsW norm schema ty w) st
  | .mk cond val, st => by
    rw [collectW, citemsW, runC_append, collectE_eq]
    congr 1; funext st1
    rw [collectE_eq]

theorem collectOver_eq (norm : Str → Str) (schema : Str) (ty : FieldType) : ∀ (o : Over) (st : St),
    collectOver norm schema ty o st = runC (citemsOver norm schema ty o) st
  | .none, st => by rw [collectOver, citemsOver, runC]
  | .mk partitions orderBy frame, st => by
    rw [collectOver, citemsOver, runC_append, collectEs_eq]
    congr 1; funext st1
    rw [runC_append, collectEs_eq]
    congr 1; funext st2
    rw [collectFrame_eq]

theorem collectFrame_eq (norm : Str → Str) (schema : Str) (ty : FieldType) : ∀ (f : Frame) (st : St),
    collectFrame norm schema ty f st = runC (citemsFrame norm schema ty f) st
  | .none, st => by rw [collectFrame, citemsFrame, runC]
  | .mk start stop, st => by
    rw [collectFrame, citemsFrame, runC_append, collectBound_eq]
    congr 1; funext st1
    rw [collectBound_eq]

theorem collectBound_eq (norm : Str → Str) (schema : Str) (ty : FieldType) : ∀ (b : Bound) (st : St),
    collectBound norm schema ty b st = runC (citemsBound norm schema ty b) st
  | .none, st => by rw [collectBound, citemsBound, runC]
  | .mk e, st => by rw [collectBound, citemsBound, collectE_eq]

end

/-- one element of the walk below a node: a call that does not concern subqueries, or a
subquery (as a FROM item: `derived`) -/
inductive WItem where
  | noise (ev : Ev)
  | sub (derived : Bool) (id : Nat) (b : Body)

/-- the calls of an element of the walk -/
def WItem.evs : WItem → List Ev
  | .noise ev => [ev]
  | .sub _ id b => [.enterSubquery id b] ++ walkB b ++ [.leaveSubquery id]

mutual

/-- the walk of an expression, subqueries kept whole -/
def witemsE : Expr → List WItem
  | .nil => [.noise .plain]
  | .leaf known _ => if known then [.noise .plain] else [.noise .unknown]
  | .node known kids => if known then witemsEs kids ++ [.noise .plain] else [.noise .unknown]
  | .case subject whens els =>
    witemsE subject ++ witemsE els ++ witemsWs whens ++ [.noise .plain]
  | .func args filter over _ => witemsOver over ++ witemsEs args ++ witemsE filter ++ [.noise .plain]
  | .name _ _ => [.noise .plain]
  | .unqualifiedStar => [.noise .plain]
  | .tupleStar e => witemsE e ++ [.noise .plain]
  | .columnAccess e _ => witemsE e ++ [.noise .plain]
  | .allColumns _ => [.noise .unknown]
  | .columnItem _ _ => [.noise .unknown]
  | .subquery id body => [.sub false id body]

/-- see `witemsE` -/
def witemsEs : List Expr → List WItem
  | [] => []
  | e :: es => witemsE e ++ witemsEs es

/-- see `witemsE` -/
def witemsWs : List When → List WItem
  | [] => []
  | w :: ws => witemsW w ++ witemsWs ws

/-- see `witemsE` -/
def witemsW : When → List WItem
  | .mk cond val => witemsE cond ++ witemsE val

/-- see `witemsE` -/
def witemsOver : Over → List WItem
  | .none => []
  | .mk partitions _ frame => witemsEs partitions ++ witemsFrame frame ++ [.noise .plain]

/-- see `witemsE` -/
def witemsFrame : Frame → List WItem
  | .none => []
  | .mk start stop => witemsBound start ++ witemsBound stop ++ [.noise .plain]

/-- see `witemsE` -/
def witemsBound : Bound → List WItem
  | .none => []
  | .mk e => witemsE e ++ [.noise .plain]

end

/-- see `witemsE` -/
def witemsSEs : List SelExpr → List WItem
  | [] => []
  | .mk e _ :: es => witemsE e ++ [.noise .plain] ++ witemsSEs es

/-- see `witemsE` -/
def witemsC : Cond → List WItem
  | .none => [.noise .plain]
  | .natural => [.noise .unknown]
  | .on e => witemsE e ++ [.noise .plain]
  | .using _ => [.noise .unknown]

/-- see `witemsE` -/
def witemsT : TableExpr → List WItem
  | .aliased e as _ => [.noise (.enterAliased e as)] ++ witemsT e ++ [.noise .plain]
  | .subquery id body => [.sub true id body]
  | .tableName _ _ _ => [.noise .plain]
  | .objectName _ => [.noise .unknown]
  | .statementSource => [.noise .unknown]
  | .tableRef => [.noise .unknown]
  | .paren _ => [.noise .unknown]
  | .join l r c => witemsT l ++ witemsT r ++ witemsC c ++ [.noise .plain]
  | .rowsFrom items => witemsEs items ++ [.noise .plain]

/-- see `witemsE` -/
def witemsTs : List TableExpr → List WItem
  | [] => []
  | t :: ts => witemsT t ++ witemsTs ts

/-- see `witemsE` -/
def witemsO : Option Expr → List WItem
  | .none => []
  | .some e => witemsE e ++ [.noise .plain]

/-- see `witemsE` -/
def witemsL : Limit → List WItem
  | .none => []
  | .mk count _ => witemsE count ++ [.noise .plain]

mutual

theorem walkE_eq : ∀ e : Expr, walkE e = (witemsE e).flatMap WItem.evs
  | .nil => by simp [walkE, witemsE, WItem.evs]
  | .leaf known _ => by cases known <;> simp [walkE, witemsE, WItem.evs]
  | .node known kids => by cases known <;> simp [walkE, witemsE, WItem.evs, walkEs_eq kids]
  | .case subject whens els => by
    simp [walkE, witemsE, WItem.evs, walkE_eq subject, walkE_eq els, walkWs_eq whens]
  | .func args filter over _ => by
    simp [walkE, witemsE, WItem.evs, walkEs_eq args, walkE_eq filter, walkOver_eq over]
  | .name _ _ => by simp [walkE, witemsE, WItem.evs]
  | .unqualifiedStar => by simp [walkE, witemsE, WItem.evs]
  | .tupleStar e => by simp [walkE, witemsE, WItem.evs, walkE_eq e]
  | .columnAccess e _ => by simp [walkE, witemsE, WItem.evs, walkE_eq e]
  | .allColumns _ => by simp [walkE, witemsE, WItem.evs]
  | .columnItem _ _ => by simp [walkE, witemsE, WItem.evs]
  | .subquery id body => by simp [walkE, witemsE, WItem.evs]

theorem walkEs_eq : ∀ es : List Expr, walkEs es = (witemsEs es).flatMap WItem.evs
  | [] => by simp [walkEs, witemsEs]
  | e :: es => by simp [walkEs, witemsEs, walkE_eq e, walkEs_eq es]

theorem walkWs_eq : ∀ ws : List When, walkWs ws = (witemsWs ws).flatMap WItem.evs
  | [] => by simp [walkWs, witemsWs]
  | w :: ws => by simp [walkWs, witemsWs, walkW_eq w, walkWs_eq ws]

theorem walkW_eq : ∀ w : When, walkW w = (witemsW w).flatMap WItem.evs
  | .mk cond val => by simp [walkW, witemsW, walkE_eq cond, walkE_eq val]

theorem walkOver_eq : ∀ o : Over, walkOver o = (witemsOver o).flatMap WItem.evs
  | .none => by simp [walkOver, witemsOver]
  | .mk partitions _ frame => by
    simp [walkOver, witemsOver, WItem.evs, walkEs_eq partitions, walkFrame_eq frame]

theorem walkFrame_eq : ∀ f : Frame, walkFrame f = (witemsFrame f).flatMap WItem.evs
  | .none => by simp [walkFrame, witemsFrame]
  | .mk start stop => by
    simp [walkFrame, witemsFrame, WItem.evs, walkBound_eq start, walkBound_eq stop]

theorem walkBound_eq : ∀ b : Bound, walkBound b = (witemsBound b).flatMap WItem.evs
  | .none => by simp [walkBound, witemsBound]
  | .mk e => by simp [walkBound, witemsBound, WItem.evs, walkE_eq e]

end

theorem walkSEs_eq : ∀ es : List SelExpr, walkSEs es = (witemsSEs es).flatMap WItem.evs
  | [] => by simp [walkSEs, witemsSEs]
  | .mk e _ :: es => by simp [walkSEs, walkSE, witemsSEs, WItem.evs, walkE_eq e, walkSEs_eq es]

theorem walkC_eq : ∀ c : Cond, walkC c = (witemsC c).flatMap WItem.evs
  | .none => by simp [walkC, witemsC, WItem.evs]
  | .natural => by simp [walkC, witemsC, WItem.evs]
  | .on e => by simp [walkC, witemsC, WItem.evs, walkE_eq e]
  | .using _ => by simp [walkC, witemsC, WItem.evs]

theorem walkT_eq : ∀ t : TableExpr, walkT t = (witemsT t).flatMap WItem.evs
  | .aliased e as _ => by simp [walkT, witemsT, WItem.evs, walkT_eq e]
  | .subquery id body => by simp [walkT, witemsT, WItem.evs]
  | .tableName _ _ _ => by simp [walkT, witemsT, WItem.evs]
  | .objectName _ => by simp [walkT, witemsT, WItem.evs]
  | .statementSource => by simp [walkT, witemsT, WItem.evs]
  | .tableRef => by simp [walkT, witemsT, WItem.evs]
  | .paren _ => by simp [walkT, witemsT, WItem.evs]
  | .join l r c => by simp [walkT, witemsT, WItem.evs, walkT_eq l, walkT_eq r, walkC_eq c]
  | .rowsFrom items => by simp [walkT, witemsT, WItem.evs, walkEs_eq items]

theorem walkTs_eq : ∀ ts : List TableExpr, walkTs ts = (witemsTs ts).flatMap WItem.evs
  | [] => by simp [walkTs, witemsTs]
  | t :: ts => by simp [walkTs, witemsTs, walkT_eq t, walkTs_eq ts]

theorem walkO_eq : ∀ o : Option Expr, walkO o = (witemsO o).flatMap WItem.evs
  | .none => by simp [walkO, witemsO]
  | .some e => by simp [walkO, witemsO, WItem.evs, walkE_eq e]

theorem walkL_eq : ∀ l : Limit, walkL l = (witemsL l).flatMap WItem.evs
  | .none => by simp [walkL, witemsL]
  | .mk count _ => by simp [walkL, witemsL, WItem.evs, walkE_eq count]

/-- the walk of the expressions and tables of a clause -/
def witemsClause (orderBy : List Expr) (limit : Limit) (exprs : List SelExpr)
    (tables : List TableExpr) (where_ : Option Expr) (groupBy : List Expr) (having : Option Expr)
    (distinctOn : List Expr) : List WItem :=
  witemsEs orderBy ++ witemsL limit ++ witemsSEs exprs ++ witemsO where_ ++ witemsO having ++
    witemsEs distinctOn ++ witemsEs groupBy ++ witemsTs tables ++ [.noise .plain]

theorem walkS_clause (id : Nat) (orderBy : List Expr) (limit : Limit) (exprs : List SelExpr)
    (tables : List TableExpr) (where_ : Option Expr) (groupBy : List Expr) (having : Option Expr)
    (window : Bool) (distinctOn : List Expr) :
    walkS (.mk id none orderBy limit
        (.clause exprs tables where_ groupBy having window distinctOn)) =
      [.enterSelect (.mk id none orderBy limit
        (.clause exprs tables where_ groupBy having window distinctOn))] ++
      (witemsClause orderBy limit exprs tables where_ groupBy having distinctOn).flatMap WItem.evs ++
      [.leaveSelect (.mk id none orderBy limit
        (.clause exprs tables where_ groupBy having window distinctOn))] := by
  simp [walkS, walkWith, walkB, witemsClause, walkEs_eq, walkL_eq, walkSEs_eq, walkO_eq, walkTs_eq,
    WItem.evs]

end Verif.PgScope
