import Verif.PgScope.Lin
/-!
# Entering a clause as a flat list of contributions (helper definitions and lemmas)
-/
namespace Verif.PgScope
open Verif.Builder Verif.Fields Verif.Lib

/-- one contribution of a FROM item -/
inductive TItem where
  | tab (t : Table)
  | derived (b : Body) (as : Str) (lateral : Bool)
  | field (items : List CItem)
  | err (e : Err)
  | loop

/-- the contributions of a join condition -/
def citemsCond (norm : Str → Str) (schema : Str) : Cond → List TItem
  | .none => []
  | .natural => [.err .naturalJoin]
  | .on e => [.field (citemsE norm schema .condition e)]
  | .using cols => cols.map fun col =>
      .field [.col { table := [], name := norm col, type := .condition }]

/-- the contributions of `ROWS FROM` -/
def rowItems (norm : Str → Str) (schema : Str) (items : List Expr) : List TItem :=
  items.map fun e => .field (citemsE norm schema .reference e)

/-- the contributions of a FROM item, in the order in which they are collected -/
def titems (norm : Str → Str) (schema : Str) : TableExpr → List TItem
  | .aliased (.subquery _ body) as lateral => [.derived body as lateral]
  | .aliased (.objectName parts) as _ =>
    if schemaSpecified schema parts 1 then [.err .explicitSchema]
    else [.tab ⟨norm as, part parts 0, false⟩]
  | .aliased .statementSource _ _ => [.err .statementSource]
  | .aliased (.aliased _ _ _) _ _ => [.err .nestedAs]
  | .aliased (.paren _) _ _ => [.loop]
  | .aliased (.join l r c) _ _ =>
    titems norm schema l ++ (titems norm schema r ++ citemsCond norm schema c)
  | .aliased (.rowsFrom items) _ _ => rowItems norm schema items
  | .aliased (.tableName catalog sName table) as _ =>
    if tableSchemaSpecified norm schema catalog sName then [.err .explicitSchema]
    else [.tab ⟨norm as, table, false⟩]
  | .aliased .tableRef _ _ => [.err .tableRef]
  | .paren _ => [.loop]
  | .join l r c => titems norm schema l ++ (titems norm schema r ++ citemsCond norm schema c)
  | .rowsFrom items => rowItems norm schema items
  | .subquery _ _ => []
  | .statementSource => [.err .statementSource]
  | .tableName _ _ _ => [.err .fromItem]
  | .objectName _ => [.err .fromItem]
  | .tableRef => [.err .fromItem]

/-- results one after the other -/
def thenTabs (r : Tabs) (f : St → Tabs) : Tabs :=
  match r with
  | .error e => .error e
  | .ok (t, fs, st) =>
    match f st with
    | .error e => .error e
    | .ok (t', fs', st') => .ok (t ++ t', fs ++ fs', st')

/-- collecting one contribution of a FROM item -/
def runTI (norm : Str → Str) (st : St) : TItem → Tabs
  | .tab t => .ok ([t], [], st)
  | .derived b as lateral => derivedTable norm b as lateral st
  | .field items =>
    match runC items st with
    | .error f => .error f
    | .ok (cols, st) => .ok ([], [{ columns := cols }], st)
  | .err e => failTab e st
  | .loop => .error .fuel

/-- collecting a list of contributions of a FROM item -/
def runT (norm : Str → Str) : List TItem → St → Tabs
  | [], st => .ok ([], [], st)
  | x :: r, st => thenTabs (runTI norm st x) (runT norm r)

theorem thenTabs_nil (r : Tabs) : thenTabs r (fun st => .ok ([], [], st)) = r := by
  rcases r with e | ⟨a, b, st⟩
  · rfl
  · simp [thenTabs]

theorem nil_thenTabs (st : St) (f : St → Tabs) : thenTabs (.ok ([], [], st)) f = f st := by
  simp only [thenTabs]
  rcases f st with e | ⟨a, b, st⟩
  · rfl
  · simp

theorem thenTabs_assoc (r : Tabs) (f g : St → Tabs) :
    thenTabs (thenTabs r f) g = thenTabs r fun st => thenTabs (f st) g := by
  rcases r with e | ⟨a, a', st⟩
  · rfl
  · simp only [thenTabs]
    rcases f st with e | ⟨b, b', st1⟩
    · rfl
    · simp only
      rcases g st1 with e | ⟨c, c', st2⟩
      · rfl
      · simp

theorem runT_append (norm : Str → Str) (a b : List TItem) (st : St) :
    runT norm (a ++ b) st = thenTabs (runT norm a st) (runT norm b) := by
  induction a generalizing st with
  | nil => rw [runT, List.nil_append, nil_thenTabs]
  | cons x r ih =>
    have ih' : runT norm (r ++ b) = fun st => thenTabs (runT norm r st) (runT norm b) := funext ih
    rw [List.cons_append, runT, runT, thenTabs_assoc, ih']

theorem runT_single (norm : Str → Str) (x : TItem) (st : St) : runT norm [x] st = runTI norm st x := by
  rw [runT]
  exact thenTabs_nil _

theorem rowsTab_eq (norm : Str → Str) (schema : Str) (items : List Expr) (st : St) :
    rowsTab norm schema items st = runT norm (rowItems norm schema items) st := by
  unfold rowsTab
  induction items generalizing st with
  | nil => rfl
  | cons e es ih =>
    rw [rowItems, List.map_cons, runT, runTI, collectRows, collectE_eq]
    rcases runC (citemsE norm schema .reference e) st with f | ⟨cols, st1⟩
    · rfl
    · simp only
      have := ih st1
      rw [rowItems] at this
      simp only [thenTabs]
      rw [← this]
      rcases collectRows norm schema es st1 with f | ⟨fs, st2⟩
      · rfl
      · rfl

/-- a join condition as a result of `collectTables` -/
theorem collectCond_eq (norm : Str → Str) (schema : Str) (c : Cond) (st : St) :
    (match collectCond norm schema c st with
      | .error f => (.error f : Tabs)
      | .ok (cf, st) => .ok ([], cf, st)) = runT norm (citemsCond norm schema c) st := by
  cases c with
  | none => rfl
  | natural => rfl
  | on e =>
    rw [citemsCond, runT_single, runTI, collectCond, collectE_eq]
    rcases runC (citemsE norm schema .condition e) st with f | ⟨cols, st1⟩ <;> rfl
  | «using» cols =>
    rw [citemsCond, collectCond]
    simp only
    induction cols generalizing st with
    | nil => rfl
    | cons col cols ih =>
      rw [List.map_cons, List.map_cons, runT, runTI, runC_single_col]
      simp only [thenTabs]
      rw [← ih]
      rfl

theorem collectJoin_eq (norm : Str → Str) (schema : Str) (rec_ : TableExpr → St → Tabs)
    (l r : TableExpr) (c : Cond) (st : St)
    (hl : ∀ st, rec_ l st = runT norm (titems norm schema l) st)
    (hr : ∀ st, rec_ r st = runT norm (titems norm schema r) st) :
    collectJoin norm schema rec_ l r c st =
      runT norm (titems norm schema l ++ (titems norm schema r ++ citemsCond norm schema c)) st := by
  rw [collectJoin, runT_append, hl]
  rcases runT norm (titems norm schema l) st with f | ⟨lt, lf, st1⟩
  · rfl
  · simp only [thenTabs]
    rw [runT_append, hr]
    rcases runT norm (titems norm schema r) st1 with f | ⟨rt, rf, st2⟩
    · rfl
    · simp only [thenTabs]
      rw [← collectCond_eq]
      rcases collectCond norm schema c st2 with f | ⟨cf, st3⟩
      · rfl
      · simp

/-- no parenthesised FROM item in a FROM item -/
def noParen : TableExpr → Bool
  | .paren _ => false
  | .aliased (.paren _) _ _ => false
  | .aliased (.join l r _) _ _ => noParen l && noParen r
  | .join l r _ => noParen l && noParen r
  | _ => true

theorem titems_loop (norm : Str → Str) (schema : Str) (t : TableExpr) (h : noParen t = true) :
    .loop ∉ titems norm schema t := by
  have hc : ∀ c, TItem.loop ∉ citemsCond norm schema c := by
    intro c
    cases c <;> simp [citemsCond]
  have hrow : ∀ is, TItem.loop ∉ rowItems norm schema is := by
    intro is; simp [rowItems]
  fun_induction noParen t with
  | case1 => simp at h
  | case2 => simp at h
  | case3 l r c as lat ihl ihr =>
    simp only [Bool.and_eq_true] at h
    simp [titems, ihl h.1, ihr h.2, hc]
  | case4 l r c ihl ihr =>
    simp only [Bool.and_eq_true] at h
    simp [titems, ihl h.1, ihr h.2, hc]
  | case5 t h1 h2 h3 h4 =>
    cases t with
    | paren t => exact absurd rfl (h1 t)
    | join l r c => exact absurd rfl (h4 l r c)
    | rowsFrom => simpa [titems] using hrow _
    | aliased e as lat =>
      cases e with
      | paren t => exact absurd rfl (h2 t as lat)
      | join l r c => exact absurd rfl (h3 l r c as lat)
      | rowsFrom => simpa [titems] using hrow _
      | objectName => simp [titems]; split <;> simp
      | tableName => simp [titems]; split <;> simp
      | _ => simp [titems]
    | _ => simp [titems]

theorem collectT_eq (norm : Str → Str) (schema : Str) (n : Nat) (t : TableExpr) (st : St)
    (h : noParen t = true) (hn : sizeOf t ≤ n) :
    collectT norm schema n t st = runT norm (titems norm schema t) st := by
  induction n generalizing t st with
  | zero => cases t <;> simp at hn
  | succ n ih =>
    cases t with
    | aliased e as lateral =>
      cases e with
      | subquery => rw [collectT, titems, runT_single, runTI]
      | objectName =>
        rw [collectT, titems, objectTab]
        split <;> (rw [runT_single]; rfl)
      | statementSource => rw [collectT, titems]; (rw [runT_single]; rfl)
      | aliased => rw [collectT, titems]; (rw [runT_single]; rfl)
      | paren => simp [noParen] at h
      | join l r c =>
        simp only [noParen, Bool.and_eq_true] at h
        simp at hn
        rw [collectT, titems]
        refine collectJoin_eq norm schema _ l r c st (fun st => ih l st h.1 ?_)
          (fun st => ih r st h.2 ?_) <;> omega
      | rowsFrom => rw [collectT, titems, rowsTab_eq]
      | tableName =>
        rw [collectT, titems, nameTab]
        split <;> (rw [runT_single]; rfl)
      | tableRef => rw [collectT, titems]; (rw [runT_single]; rfl)
    | paren => simp [noParen] at h
    | join l r c =>
      simp only [noParen, Bool.and_eq_true] at h
      simp at hn
      rw [collectT, titems]
      refine collectJoin_eq norm schema _ l r c st (fun st => ih l st h.1 ?_)
        (fun st => ih r st h.2 ?_) <;> omega
    | rowsFrom => rw [collectT, titems, rowsTab_eq]
    | subquery => rw [collectT, titems]; rfl
    | statementSource => rw [collectT, titems]; (rw [runT_single]; rfl)
    | tableName => rw [collectT, titems]; (rw [runT_single]; rfl)
    | objectName => rw [collectT, titems]; (rw [runT_single]; rfl)
    | tableRef => rw [collectT, titems]; (rw [runT_single]; rfl)

/-! ## A clause -/

/-- one part of a clause -/
inductive Part where
  | expr (as : Str) (items : List CItem)
  | table (items : List TItem)
  | window

/-- collecting one part -/
def runPI (norm : Str → Str) (p : Nat) (st : St) : Part → Found
  | .expr as items =>
    match runC items st with
    | .error f => .error f
    | .ok (cols, st) => .ok (keepField as cols st)
  | .table items =>
    match runT norm items st with
    | .error f => .error f
    | .ok (tables, fields, st) =>
      .ok (fields, (recordError st).update p fun c => { c with tables := tables })
  | .window => .ok ([], { st with errors := st.errors ++ [.window] })

/-- collecting a list of parts -/
def runP (norm : Str → Str) (p : Nat) : List Part → St → Found
  | [], st => .ok ([], st)
  | x :: r, st => thenFound (runPI norm p st x) (runP norm p r)

theorem thenFound_nil (r : Found) : thenFound r (fun st => .ok ([], st)) = r := by
  rcases r with e | ⟨a, st⟩
  · rfl
  · simp [thenFound]

theorem nil_thenFound (st : St) (f : St → Found) : thenFound (.ok ([], st)) f = f st := by
  simp only [thenFound]
  rcases f st with e | ⟨a, st⟩
  · rfl
  · simp

theorem thenFound_assoc (r : Found) (f g : St → Found) :
    thenFound (thenFound r f) g = thenFound r fun st => thenFound (f st) g := by
  rcases r with e | ⟨a, st⟩
  · rfl
  · simp only [thenFound]
    rcases f st with e | ⟨b, st1⟩
    · rfl
    · simp only
      rcases g st1 with e | ⟨c, st2⟩
      · rfl
      · simp

theorem runP_append (norm : Str → Str) (p : Nat) (a b : List Part) (st : St) :
    runP norm p (a ++ b) st = thenFound (runP norm p a st) (runP norm p b) := by
  induction a generalizing st with
  | nil => rw [runP, List.nil_append, nil_thenFound]
  | cons x r ih =>
    have ih' : runP norm p (r ++ b) = fun st => thenFound (runP norm p r st) (runP norm p b) :=
      funext ih
    rw [List.cons_append, runP, runP, thenFound_assoc, ih']

theorem runP_single (norm : Str → Str) (p : Nat) (x : Part) (st : St) :
    runP norm p [x] st = runPI norm p st x := by
  rw [runP]
  exact thenFound_nil _

/-- the parts of a list of selected expressions -/
def partsSEs (norm : Str → Str) (schema : Str) (es : List SelExpr) : List Part :=
  es.map fun | .mk e as => .expr as (citemsE norm schema .reference e)

/-- the parts of a list of expressions -/
def partsEs (norm : Str → Str) (schema : Str) (es : List Expr) : List Part :=
  es.map fun e => .expr [] (citemsE norm schema .reference e)

/-- the parts of an optional expression -/
def partsO (norm : Str → Str) (schema : Str) (ty : FieldType) (o : Option Expr) : List Part :=
  o.toList.map fun e => .expr [] (citemsE norm schema ty e)

/-- the parts of a limit -/
def partsL (norm : Str → Str) (schema : Str) : Limit → List Part
  | .none => []
  | .mk count offset =>
    [.expr [] (citemsE norm schema .reference count), .expr [] (citemsE norm schema .reference offset)]

/-- the parts of FROM -/
def partsTs (norm : Str → Str) (schema : Str) (ts : List TableExpr) : List Part :=
  ts.map fun t => .table (titems norm schema t)

/-- the parts of a select -/
def partsS (norm : Str → Str) (schema : Str) : Select → List Part
  | .mk _ _ orderBy limit (.clause exprs tables where_ groupBy having window _) =>
    partsSEs norm schema exprs ++ (partsTs norm schema tables ++
      (partsO norm schema .condition where_ ++ (partsEs norm schema groupBy ++
        (partsO norm schema .reference having ++ ((if window then [.window] else []) ++
          (partsEs norm schema orderBy ++ partsL norm schema limit))))))
  | _ => []

theorem foundE_eq (norm : Str → Str) (schema : Str) (ty : FieldType) (as : Str) (e : Expr) (p : Nat)
    (st : St) : foundE norm schema ty as e st = runPI norm p st (.expr as (citemsE norm schema ty e)) := by
  rw [foundE, runPI, collectE_eq]
  rcases runC (citemsE norm schema ty e) st with f | ⟨cols, st1⟩ <;> rfl

theorem foundSEs_eq (norm : Str → Str) (schema : Str) (es : List SelExpr) (p : Nat) (st : St) :
    foundSEs norm schema es st = runP norm p (partsSEs norm schema es) st := by
  induction es generalizing st with
  | nil => rfl
  | cons e es ih =>
    obtain ⟨e, as⟩ := e
    rw [foundSEs, partsSEs, List.map_cons, runP, foundE_eq (p := p)]
    congr 1; funext st1
    exact ih st1

theorem foundEs_eq (norm : Str → Str) (schema : Str) (es : List Expr) (p : Nat) (st : St) :
    foundEs norm schema es st = runP norm p (partsEs norm schema es) st := by
  induction es generalizing st with
  | nil => rfl
  | cons e es ih =>
    rw [foundEs, partsEs, List.map_cons, runP, foundE_eq (p := p)]
    congr 1; funext st1
    exact ih st1

theorem foundO_eq (norm : Str → Str) (schema : Str) (ty : FieldType) (o : Option Expr) (p : Nat)
    (st : St) : foundO norm schema ty o st = runP norm p (partsO norm schema ty o) st := by
  cases o with
  | none => rfl
  | some e => rw [foundO, foundE_eq (p := p)]; exact (runP_single _ _ _ _).symm

theorem foundLimit_eq (norm : Str → Str) (schema : Str) (l : Limit) (p : Nat) (st : St) :
    foundLimit norm schema l st = runP norm p (partsL norm schema l) st := by
  cases l with
  | none => rfl
  | mk count offset =>
    rw [foundLimit, foundE_eq (p := p), partsL, runP]
    congr 1; funext st1
    rw [foundE_eq (p := p)]; exact (runP_single _ _ _ _).symm

theorem foundWindow_eq (norm : Str → Str) (w : Bool) (p : Nat) (st : St) :
    foundWindow w st = runP norm p (if w then [.window] else []) st := by
  cases w
  · rfl
  · show _ = runP norm p [.window] st
    rw [runP_single]; rfl

theorem foundTs_eq (norm : Str → Str) (schema : Str) (fuel p : Nat) (ts : List TableExpr) (st : St)
    (hp : ∀ t ∈ ts, noParen t = true) (hf : ∀ t ∈ ts, sizeOf t ≤ fuel) :
    foundTs norm schema fuel p ts st = runP norm p (partsTs norm schema ts) st := by
  induction ts generalizing st with
  | nil => rfl
  | cons t ts ih =>
    rw [foundTs, partsTs, List.map_cons, runP, runPI,
      collectT_eq norm schema fuel t st (hp t (by simp)) (hf t (by simp))]
    rcases runT norm (titems norm schema t) st with f | ⟨tabs, fields, st1⟩
    · rfl
    · simp only
      congr 1; funext st2
      exact ih st2 (fun t h => hp t (by simp [h])) (fun t h => hf t (by simp [h]))

/-- `Enter` for a clause, flat -/
theorem enterClause_eq (norm : Str → Str) (schema : Str) (fuel : Nat) (node : Node) (p id : Nat)
    (w : Option (List Cte)) (orderBy : List Expr) (limit : Limit) (exprs : List SelExpr)
    (tables : List TableExpr) (where_ : Option Expr) (groupBy : List Expr) (having : Option Expr)
    (window : Bool) (distinctOn : List Expr) (st : St)
    (hp : ∀ t ∈ tables, noParen t = true) (hf : ∀ t ∈ tables, sizeOf t ≤ fuel) :
    enterClause norm schema fuel node p
      (.mk id w orderBy limit (.clause exprs tables where_ groupBy having window distinctOn)) st =
    match runP norm p (partsS norm schema (.mk id w orderBy limit
        (.clause exprs tables where_ groupBy having window distinctOn)))
        { st with stack := (node, p) :: st.stack } with
    | .error f => .error f
    | .ok (found, st) => .ok (finishEnter p found (withError w st)) := by
  have h : ∀ st0 : St,
      (thenFound (foundSEs norm schema exprs st0) fun st =>
      thenFound (foundTs norm schema fuel p tables st) fun st =>
      thenFound (foundO norm schema .condition where_ st) fun st =>
      thenFound (foundEs norm schema groupBy st) fun st =>
      thenFound (foundO norm schema .reference having st) fun st =>
      thenFound (foundWindow window st) fun st =>
      thenFound (foundEs norm schema orderBy st) fun st =>
      foundLimit norm schema limit st) =
      runP norm p (partsS norm schema (.mk id w orderBy limit
        (.clause exprs tables where_ groupBy having window distinctOn))) st0 := by
    intro st0
    rw [partsS, runP_append, foundSEs_eq (p := p)]
    congr 1; funext st1
    rw [runP_append, foundTs_eq _ _ _ _ _ _ hp hf]
    congr 1; funext st2
    rw [runP_append, foundO_eq (p := p)]
    congr 1; funext st3
    rw [runP_append, foundEs_eq (p := p)]
    congr 1; funext st4
    rw [runP_append, foundO_eq (p := p)]
    congr 1; funext st5
    rw [runP_append, foundWindow_eq norm window p]
    congr 1; funext st6
    rw [runP_append, foundEs_eq (p := p)]
    congr 1; funext st7
    rw [foundLimit_eq (p := p)]
  rw [enterClause]
  simp only [h]
  rcases runP norm p _ _ with f | ⟨found, st1⟩ <;> rfl

end Verif.PgScope
