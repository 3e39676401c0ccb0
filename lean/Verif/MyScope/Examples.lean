import Verif.MyScope.EndToEnd
/-!
# Queries that meet the hypotheses of C70–C72, and counterexamples
-/
namespace Verif.MyScope
open Verif.Index Verif.Builder Verif.Fields Verif.Fields.Spec Verif.Lib Verif.MyScope.Spec
open Verif.PgScope (HasColumn InPrimaryKey lower)

/-! ## Checking trees -/

/-- every node satisfies `p`, which also gets the names bound above it -/
def allNd (b : Nd → List Str) (p : List Str → Nd → Bool) : Nat → List Str → Nd → Bool
  | 0, _, _ => false
  | n + 1, acc, x => p acc x && (kids x).all fun y => allNd b p n (acc ++ b x) y

theorem allNd_path {b : Nd → List Str} {p : List Str → Nd → Bool} {x z : Nd} {ns : List Str}
    (h : Path b x ns z) : ∀ (n : Nat) (acc : List Str), allNd b p n acc x = true → p (acc ++ ns) z = true := by
  induction h with
  | refl x =>
    intro n acc hp
    cases n with
    | zero => simp [allNd] at hp
    | succ n => simp only [allNd, Bool.and_eq_true] at hp; simpa using hp.1
  | step x y z ns hy _ ih =>
    intro n acc hp
    cases n with
    | zero => simp [allNd] at hp
    | succ n =>
      simp only [allNd, Bool.and_eq_true, List.all_eq_true] at hp
      rw [← List.append_assoc]
      exact ih n _ (hp.2 y hy)

theorem allNd_below {p : List Str → Nd → Bool} {x z : Nd} (h : Below x z) :
    ∀ (n : Nat), allNd (fun _ => []) p n [] x = true → p [] z = true := by
  induction h with
  | refl x =>
    intro n hp
    cases n with
    | zero => simp [allNd] at hp
    | succ n => simp only [allNd, Bool.and_eq_true] at hp; exact hp.1
  | step hy _ ih =>
    intro n hp
    cases n with
    | zero => simp [allNd] at hp
    | succ n =>
      simp only [allNd, Bool.and_eq_true, List.all_eq_true] at hp
      exact ih n (by simpa using hp.2 _ hy)

/-! ## A catalogue -/

/-- tables `users`, `tasks` and `posts` -/
def exRows : List (Name × Name × Bool) :=
  [("users".toList, "id".toList, true), ("users".toList, "name".toList, false),
   ("tasks".toList, "id".toList, true), ("tasks".toList, "user_id".toList, false),
   ("tasks".toList, "status".toList, false),
   ("posts".toList, "id".toList, true), ("posts".toList, "user_id".toList, false),
   ("posts".toList, "kind".toList, false), ("posts".toList, "createdAt".toList, false)]

/-- what the catalogue answers -/
def exCols (_ : List Str) : Except Unit (List (Name × Name × Bool)) := .ok exRows

/-- nothing is rearranged -/
def idOrders : Orders := ⟨id, idOrder, idKeys, idEntries, sortT⟩

theorem idOrders_ok : idOrders.Ok :=
  ⟨fun _ => .refl _, ⟨fun _ _ => .refl _, fun _ _ => .refl _, fun _ _ => .refl _, sortT_isSort⟩⟩

/-- the indexes of a success -/
def outOf {ε : Type} : Option (Except (IndexErr ε) (List IndexTarget)) → Option (List IndexTarget)
  | some (.ok l) => some l
  | _ => none

theorem outOf_some {ε : Type} {r : Option (Except (IndexErr ε) (List IndexTarget))} {l : List IndexTarget}
    (h : outOf r = some l) : r = some (.ok l) := by
  unfold outOf at h
  split at h
  · simp at h; rw [h]
  · cases h

/-- whether the analysis reports an error -/
def fails {ε : Type} : Option (Except (IndexErr ε) (List IndexTarget)) → Bool
  | some (.error _) => true
  | _ => false

theorem fails_some {ε : Type} {r : Option (Except (IndexErr ε) (List IndexTarget))}
    (h : fails r = true) : ∃ e, r = some (.error e) := by
  unfold fails at h
  split at h
  · exact ⟨_, rfl⟩
  · cases h

/-! ## Queries -/

/-- `SELECT fields FROM from_ WHERE where_` -/
def sel (fields : List SelField) (from_ : Join) (where_ : Option Expr) : Select :=
  .mk false none fields (some from_) where_ [] none [] none [] .none

/-- a table as a FROM clause -/
def tab (name as : String) : Ref := .source (.table [] name.toList) as.toList

/-- a FROM clause with one item -/
def only (r : Ref) : Join := .mk r .nil none []

/-- a column -/
def c (t n : String) : Expr := .column [] t.toList n.toList

/-- `a = b` -/
def eq (a b : Expr) : Expr := .node [a, b] []

/-- `SELECT user_id FROM posts WHERE kind = 2` -/
def exInner : Select := sel [.expr (c "" "user_id") []] (only (tab "posts" "")) (some (eq (c "" "kind") .const))

/-- `SELECT u.Name FROM Users u JOIN tasks ON tasks.user_id = u.id
WHERE status = 1 AND u.id IN (SELECT user_id FROM posts WHERE kind = 2)` -/
def exQuery : Select :=
  sel [.expr (c "u" "Name") []]
    (.mk (tab "Users" "u") (tab "tasks" "") (some (eq (c "tasks" "user_id") (c "u" "id"))) [])
    (some (.node [eq (c "" "status") .const, .node [c "u" "id", .subquery (.select exInner)] []] []))

/-- its table names -/
theorem exQuery_names : collectTableNames lower id (.select exQuery) =
    some (.ok [n "users", n "tasks", n "posts"]) := by decide +kernel

/-- its scope -/
def exScope : Scope :=
  .mk (n "<root>") [fld [col "u" "name" .reference],
    fld [col "tasks" "user_id" .condition, col "u" "id" .condition],
    fld [col "" "status" .condition, col "u" "id" .condition, { table := [], name := [], type := .subquery }]]
    [] [{ asName := n "u", name := n "users" }, { name := n "tasks" }] []

/-- the only scope of a success -/
def scopeOf : Except (List Err) (List Scope) → Option (Name × List Field × List Table)
  | .ok [.mk n f [] t []] => some (n, f, t)
  | _ => none

theorem scopeOf_some {r : Except (List Err) (List Scope)} {n : Name} {f : List Field} {t : List Table}
    (h : scopeOf r = some (n, f, t)) : r = .ok [.mk n f [] t []] := by
  unfold scopeOf at h
  split at h
  · simp only [Option.some.injEq, Prod.mk.injEq] at h
    rw [h.1, h.2.1, h.2.2]
  · cases h

theorem exQuery_scopes : collectStmtScopes lower (.select exQuery) = .ok [exScope] :=
  scopeOf_some (by decide +kernel)

/-- nothing in it is refused -/
example : ∀ z, Below (.s exQuery) z → ¬Refused z := (C70_accepts_iff lower id exQuery).mp ⟨_, exQuery_names⟩

/-- it reads `posts`, in the subquery -/
theorem exQuery_reads : ReadsTable lower exQuery "posts".toList := by
  refine ⟨[], [], [], ?_, by simp⟩
  refine .step _ (.e (.node [eq (c "" "status") .const, .node [c "u" "id", .subquery (.select exInner)] []] []))
    _ [] (by simp [kids, exQuery, sel]) ?_
  refine .step _ (.e (.node [c "u" "id", .subquery (.select exInner)] [])) _ [] (by simp [kids]) ?_
  refine .step _ (.e (.subquery (.select exInner))) _ [] (by simp [kids]) ?_
  refine .step _ (.q (.select exInner)) _ [] (by simp [kids]) ?_
  refine .step _ (.s exInner) _ [] (by simp [kids]) ?_
  refine .step _ (.j (only (tab "posts" ""))) _ [] (by simp [kids, exInner, sel]) ?_
  exact .step _ (.r (tab "posts" "")) _ [] (by simp [kids, only]) (.refl _)

theorem exQuery_noWith : NoWithOnSetOperations exQuery := by
  intro w ps rest h
  have := allNd_below (p := fun _ z => match z with
    | .q (.setOpr (_ :: _) _ _) => false
    | _ => true) h 20 (by decide +kernel)
  cases w with
  | nil => rfl
  | cons a w => simp at this

/-- the hypotheses of C70 hold of it -/
example : lower "posts".toList ∈ [n "users", n "tasks", n "posts"] :=
  (C70_names_complete lower id (fun _ => .refl _) exQuery _ exQuery_names).2 _ exQuery_reads

example : ∃ name, n "tasks" = lower name ∧ ReadsTable lower exQuery name :=
  C70_names_sound_partial lower id (fun _ => .refl _) exQuery exQuery_noWith _ exQuery_names _ (by simp)

/-- the hypotheses of `C71_scope_describes` and `C71_accepts` hold of it -/
example : Describes lower exQuery exScope := by
  obtain ⟨⟨sc, e, h⟩, -⟩ := C71_scope_describes lower exQuery _ exQuery_scopes
  simp only [List.cons.injEq, and_true] at e
  rw [e]
  exact h

example : ∃ sc, collectStmtScopes lower (.select exQuery) = .ok [sc] ∧ Describes lower exQuery sc := by
  refine C71_accepts lower exQuery fun x hx => ⟨(C71_scope_describes lower exQuery _ exQuery_scopes).2 x hx, ?_⟩
  have := allNd_below (p := fun _ z => match z with
    | .s x => x.with_.isNone && !isValues x
    | _ => true) hx 20 (by decide +kernel)
  simpa using this

/-- `SELECT id FROM users WHERE id IN (SELECT DEFAULT(id) FROM posts)`: refused, because of the subquery -/
def exRefused : Select :=
  sel [.expr (c "" "id") []] (only (tab "users" "")) (some (.node [c "" "id", .subquery (.select
    (sel [.expr (.refused [c "" "id"]) []] (only (tab "posts" "")) none))] []))

example : ∃ es, es ≠ [] ∧ collectStmtScopes lower (.select exRefused) = .error es := by
  refine C71_refuses lower exRefused (sel [.expr (.refused [c "" "id"]) []] (only (tab "posts" "")) none) ?_ ?_
  · refine .step (y := .e _) (by simp [kids, exRefused, sel]; exact .inr (.inl rfl)) ?_
    refine .step (y := .e (.subquery _)) (by simp [kids]; exact .inr rfl) ?_
    refine .step (y := .q _) (by simp [kids]; rfl) ?_
    exact .step (y := .s _) (by simp [kids]; rfl) (.refl _)
  · exact .expr _ [] .reference (.refused [c "" "id"]) (by simp [places, sel, fieldPlace, lower]) (.here _)

/-- `WITH w AS (SELECT id FROM users) SELECT id FROM w` -/
def exWith : Select :=
  .mk false (some [.mk ['w'] (.select (sel [.expr (c "" "id") []] (only (tab "users" "")) none))])
    [.expr (c "" "id") []] (some (only (tab "w" ""))) none [] none [] none [] .none

example : ∃ es, es ≠ [] ∧ collectStmtScopes lower (.select exWith) = .error es :=
  C71_with_refused lower exWith exWith _ _ _ (.refl _) rfl (.inr (by simp [fromOf, sel]))

/-- a table hidden by WITH is not a name -/
example : collectTableNames lower id (.select exWith) = some (.ok [n "users"]) := by decide +kernel

/-! ## From query to suggestions -/

/-- the suggestions for `exQuery` -/
def exOut : List IndexTarget :=
  [newIndexTarget (n "tasks") [n "status"], newIndexTarget (n "tasks") [n "user_id"],
   newIndexTarget (n "tasks") [n "status", n "user_id"], newIndexTarget (n "tasks") [n "user_id", n "status"],
   newIndexTarget (n "users") [n "id", n "name"]]

theorem exQuery_out : listPossibleIndexes idOrders lower exCols id (.select exQuery) = some (.ok exOut) :=
  outOf_some (by decide +kernel)

example := C72_suggestions_sound idOrders idOrders_ok lower exCols id _ _ exQuery_out

/-- `status` alone can only be a column of `tasks`, `tasks.user_id` is qualified -/
theorem exQuery_uses : ∀ m ∈ [n "user_id", n "status"],
    UsesColumn lower (HasColumn id exRows) exQuery (lower "tasks".toList) m .condition := by
  intro m hm
  simp only [List.mem_cons, List.not_mem_nil, or_false] at hm
  rcases hm with rfl | rfl
  · refine ⟨[], eq (c "tasks" "user_id") (c "u" "id"), "tasks".toList, "user_id".toList, ?_, ?_, by decide +kernel,
      ?_⟩
    · simp [places, exQuery, sel, joinConds, refConds, tab, plainPlace]
    · exact .operand _ (c "tasks" "user_id") _ _ (by simp [operands, eq]) (.column _ _ _)
    · refine ⟨by decide +kernel, by unfold HasColumn; decide +kernel, .inl ⟨by decide +kernel, by decide +kernel,
        by decide +kernel⟩⟩
  · refine ⟨[], .node [eq (c "" "status") .const, .node [c "u" "id", .subquery (.select exInner)] []] [],
      [], "status".toList, ?_, ?_, by decide +kernel, ?_⟩
    · simp [places, exQuery, sel, plainPlace]
    · exact .operand _ (eq (c "" "status") .const) _ _ (by simp [operands])
        (.operand _ (c "" "status") _ _ (by simp [operands, eq]) (.column _ _ _))
    · refine ⟨by decide +kernel, by unfold HasColumn; decide +kernel, .inr ⟨by decide +kernel,
        by unfold HasColumn; decide +kernel⟩⟩

/-- it reads `tasks` -/
theorem exQuery_reads_tasks : ReadsTable lower exQuery "tasks".toList := by
  refine ⟨[], [], [], ?_, by simp⟩
  refine .step _ (.j _) _ [] (by simp [kids, exQuery, sel]; exact .inr rfl) ?_
  exact .step _ (.r (tab "tasks" "")) _ [] (by simp [kids]) (.refl _)

/-- all hypotheses of `C72_conditions_suggested_partial` hold together -/
example : newIndexTarget (lower "tasks".toList) [n "user_id", n "status"] ∈ exOut := by
  obtain ⟨names, rows, h1, -, h2⟩ := C72_conditions_suggested_partial idOrders idOrders_ok lower exCols id exQuery
    _ exQuery_out
  simp only [exCols, Except.ok.injEq] at h1
  subst h1
  refine h2 _ _ exQuery_reads_tasks (by simp) (by decide +kernel) exQuery_uses
    ⟨n "status", by simp, by unfold InPrimaryKey; decide +kernel⟩

example : (aliases (tablesOf lower exQuery)).Nodup := by decide +kernel

/-! ## Counterexamples -/

/-- **C70**, without the restriction: it fails.  In
`SELECT id FROM users WHERE id IN (WITH w AS (SELECT id FROM posts) SELECT id FROM w UNION SELECT id FROM w)`
the common table expression `w` is taken for a table. -/
def exUnionWith : Select :=
  let w := sel [.expr (c "" "id") []] (only (tab "w" "")) none
  sel [.expr (c "" "id") []] (only (tab "users" "")) (some (.node [c "" "id", .subquery (.setOpr
    [.mk ['w'] (.select (sel [.expr (c "" "id") []] (only (tab "posts" "")) none))] [.select w, .select w] [])] []))

theorem C70_union_with_is_table : collectTableNames lower id (.select exUnionWith) =
      some (.ok [n "users", n "posts", n "w"]) ∧
    ¬∃ name, n "w" = lower name ∧ ReadsTable lower exUnionWith name := by
  refine ⟨by decide +kernel, ?_⟩
  rintro ⟨name, e, ns, schema, as, hp, hn⟩
  have := allNd_path (p := fun acc z => match z with
    | .r (.source (.table _ name) _) => lower name ≠ n "w" || (acc.map lower).contains (lower name)
    | _ => true) hp 20 [] (by decide +kernel)
  simp only [List.nil_append, ← e, ne_eq, not_true_eq_false, decide_false, Bool.false_or,
    List.contains_iff_mem] at this
  exact hn (e ▸ this)

/-- **C71**: a WITH clause is not always refused.  `WITH x AS (VALUES ROW(1)) SELECT id FROM users`: the error
is set after the clauses of the SELECT were checked, and nothing checks again. -/
theorem C71_with_values_accepted : ∃ s x q name cs, Below (.s s) (.s x) ∧
    x.with_ = some (.mk name (.select q) :: cs) ∧ ∃ sc, collectStmtScopes lower (.select s) = .ok [sc] := by
  let q : Select := .mk true none [.star []] none none [] none [.const] none [] .none
  let s : Select := .mk false (some [.mk ['x'] (.select q)]) [.expr (c "" "id") []] (some (only (tab "users" "")))
    none [] none [] none [] .none
  refine ⟨s, s, q, ['x'], [], .refl _, rfl, .mk (n "<root>") [fld [col "" "id" .reference]] []
    [{ name := n "users" }] [], scopeOf_some (by decide +kernel)⟩

/-- **C72**, for nested queries: it fails.  `kind` in the subquery of `exQuery` is a condition on `posts`, but no
index on `posts` is suggested. -/
theorem C72_nested_condition_forgotten : Below (.s exQuery) (.s exInner) ∧
    UsesColumn lower (HasColumn id exRows) exInner (n "posts") (n "kind") .condition ∧
    ReadsTable lower exQuery (n "posts") ∧
    listPossibleIndexes idOrders lower exCols id (.select exQuery) = some (.ok exOut) ∧
    ∀ t ∈ exOut, t.tableName ≠ n "posts" := by
  refine ⟨?_, ?_, exQuery_reads, exQuery_out, by decide +kernel⟩
  · refine .step (y := .e _) (by simp [kids, exQuery, sel]; exact .inr (.inl rfl)) ?_
    refine .step (y := .e (.node [c "u" "id", .subquery (.select exInner)] [])) (by simp [kids]) ?_
    refine .step (y := .e (.subquery (.select exInner))) (by simp [kids]) ?_
    refine .step (y := .q (.select exInner)) (by simp [kids]) ?_
    exact .step (y := .s exInner) (by simp [kids]) (.refl _)
  · refine ⟨[], eq (c "" "kind") .const, [], "kind".toList, ?_, ?_, by decide +kernel, ?_⟩
    · simp [places, exInner, sel, plainPlace]
    · exact .operand _ (c "" "kind") _ _ (by simp [operands, eq]) (.column _ _ _)
    · exact ⟨by decide +kernel, by unfold HasColumn; decide +kernel, .inr ⟨by decide +kernel,
        by unfold HasColumn; decide +kernel⟩⟩

/-- A column of a derived table is an error: `SELECT x.id FROM (SELECT id FROM users) x`. -/
theorem C72_derived_refused : ∃ e, listPossibleIndexes idOrders lower exCols id (.select
    (sel [.expr (c "x" "id") []] (only (.source (.select (sel [.expr (c "" "id") []] (only (tab "users" "")) none))
      ['x'])) none)) = some (.error e) :=
  fails_some (by decide +kernel)

/-- A column whose name has a capital letter in the catalogue is an error however it is written:
`SELECT createdAt FROM posts`. -/
theorem C72_capital_refused : HasColumn id exRows (n "posts") (n "createdAt") ∧
    ∃ e, listPossibleIndexes idOrders lower exCols id (.select
      (sel [.expr (c "" "createdAt") []] (only (tab "posts" "")) none)) = some (.error e) :=
  ⟨by unfold HasColumn; decide +kernel, fails_some (by decide +kernel)⟩

/-- Conditions behind COLLATE and the columns of USING are forgotten:
`SELECT users.id FROM users JOIN tasks USING (id) WHERE name COLLATE utf8mb4_bin = 'a'`. -/
theorem C72_hidden_forgotten : listPossibleIndexes idOrders lower exCols id (.select
    (sel [.expr (c "users" "id") []] (.mk (tab "users" "") (tab "tasks" "") none ["user_id".toList])
      (some (eq (.node [] [c "" "name"]) .const)))) = some (.ok []) :=
  outOf_some (by decide +kernel)

end Verif.MyScope
