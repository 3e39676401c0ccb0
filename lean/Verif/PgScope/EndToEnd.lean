import Verif.PgScope.Reads
import Verif.PgScope.Crash
import Verif.PgScope.ScopeEx
import Verif.Schemas.Props
/-!
# C68: from a PostgreSQL query to index suggestions
-/
namespace Verif.PgScope
open Verif.Index Verif.Builder Verif.Fields Verif.Fields.Spec Verif.Lib Verif.PgScope.Spec

/-! ## Model -/

/-- What Go leaves open: the order of sets and maps, and how ties are sorted. -/
structure Orders where
  names : List Str → List Str
  set : Order
  key : KeyOrder
  entry : EntryOrder
  sort : List IndexTargetTable → List IndexTargetTable

/-- Sets and maps are iterated completely and sorting sorts. -/
structure Orders.Ok (o : Orders) : Prop where
  names : Spec.AnyOrder o.names
  choices : Choices o.set o.key o.entry o.sort

/-- Errors of `ListPossibleIndexes`. -/
inductive IndexErr (ε : Type) where
  | query (es : List Err)
  | schemas (e : Schemas.Err ε)
  | build (e : BuildErr Fields.Err)

/-- `/repo/database/postgres/pservice/parser/index.go:10-32` `ListPossibleIndexes` (the same in
`/repo/database/hasura/hservice/parser/index.go`).  `cols` is `GetTableColumns` for the schema given, `f`
what is read of its rows.  Crashes of the parts are crashes of the whole. -/
def listPossibleIndexes {ε T : Type} (o : Orders) (norm : Str → Str) (fuel : Nat)
    (cols : List Str → Except ε (List T)) (f : T → Name × Name × Bool) (stmt : Stmt) :
    Except Fail (Except (IndexErr ε) (List IndexTarget)) :=
  match collectTableNames norm o.names stmt with
  | .error x => .error x
  | .ok (.error es) => .ok (.error (.query es))
  | .ok (.ok names) =>
    match Schemas.collectTableSchemas (cols names) f names with
    | .error .panic => .error .panic
    | .error e => .ok (.error (.schemas e))
    | .ok schemas =>
      match collectStmtScopes norm public_ fuel stmt with
      | .error x => .error x
      | .ok (.error es) => .ok (.error (.query es))
      | .ok (.ok scopes) =>
        match suggest o.set o.key o.entry o.sort schemas scopes with
        | .error (.fields .panic) => .error .panic
        | .error e => .ok (.error (.build e))
        | .ok its => .ok (.ok its)

/-! ## Specification -/

/-- The rows say that the table has the column. -/
def HasColumn {T : Type} (f : T → Name × Name × Bool) (rows : List T) (t n : Str) : Prop :=
  ∃ v ∈ rows, (f v).1 = t ∧ (f v).2.1 = n

/-- The rows say that the column belongs to the primary key of the table. -/
def InPrimaryKey {T : Type} (f : T → Name × Name × Bool) (rows : List T) (t n : Str) : Prop :=
  ∃ v ∈ rows, f v = (t, n, true)

/-- No table name in the rows begins with `<`, and no column name is empty. -/
def OrdinaryRows {T : Type} (f : T → Name × Name × Bool) (rows : List T) : Prop :=
  ∀ v ∈ rows, (f v).1.head? ≠ some '<' ∧ (f v).2.1 ≠ []

/-! ## Lemmas -/

variable {ε T : Type} {o : Orders} {norm : Str → Str} {fuel : Nat} {cols : List Str → Except ε (List T)}
  {f : T → Name × Name × Bool}

/-- what a success goes through -/
theorem list_ok {stmt : Stmt} {out : List IndexTarget}
    (h : listPossibleIndexes o norm fuel cols f stmt = .ok (.ok out)) :
    ∃ names rows schemas scopes, collectTableNames norm o.names stmt = .ok (.ok names) ∧
      cols names = .ok rows ∧ Schemas.collectTableSchemas (ε := ε) (.ok rows) f names = .ok schemas ∧
      collectStmtScopes norm public_ fuel stmt = .ok (.ok scopes) ∧
      suggest o.set o.key o.entry o.sort schemas scopes = .ok out := by
  simp only [listPossibleIndexes] at h
  split at h
  · cases h
  · cases h
  · next names hn =>
    split at h
    · cases h
    · cases h
    · next schemas hs =>
      split at h
      · cases h
      · cases h
      · next scopes hsc =>
        split at h
        · cases h
        · cases h
        · next its hi =>
          simp only [Except.ok.injEq] at h
          subst h
          cases hc : cols names with
          | error e => rw [hc] at hs; simp [Schemas.collectTableSchemas] at hs
          | ok rows => exact ⟨names, rows, schemas, scopes, hn, hc, by rw [← hc]; exact hs, hsc, hi⟩

theorem schemas_mem {rows : List T} {names : List Str} {schemas : List TableSchema}
    (h : Schemas.collectTableSchemas (ε := ε) (.ok rows) f names = .ok schemas) :
    (∀ t ∈ names, ∃ sch, schemaMap schemas t = some sch) ∧
    ∀ sch ∈ schemas, sch.name ∈ names ∧ (∀ n, n ∈ sch.columns ↔ HasColumn f rows sch.name n) ∧
      ∀ n, n ∈ sch.primaryKeys ↔ InPrimaryKey f rows sch.name n := by
  obtain ⟨hl, hall⟩ := (Schemas.C20_collect_ok f names rows schemas).mp h
  constructor
  · intro t ht
    obtain ⟨i, hi, e⟩ := List.mem_iff_getElem.mp ht
    have hi' : i < schemas.length := by omega
    have := hall i t schemas[i] (by rw [List.getElem?_eq_getElem hi, e]) (List.getElem?_eq_getElem hi')
    have hne : schemaMap schemas t ≠ none := by
      unfold schemaMap
      rw [ne_eq, List.find?_eq_none]
      intro hno
      have := hno schemas[i] (by simp)
      simp_all [Schemas.describes]
    exact Option.ne_none_iff_exists'.mp hne
  · intro sch hs
    obtain ⟨i, hi, e⟩ := List.mem_iff_getElem.mp hs
    have hi' : i < names.length := by omega
    obtain ⟨-, h1, h2, h3⟩ := hall i names[i] sch (List.getElem?_eq_getElem hi')
      (by rw [List.getElem?_eq_getElem hi, e])
    refine ⟨by rw [h1]; simp, ?_, ?_⟩
    · intro n
      rw [h2, h1]
      simp only [List.mem_map, Schemas.rowsOf, List.mem_filter, decide_eq_true_eq, HasColumn, and_assoc]
    · intro n
      rw [h3, h1]
      simp only [List.mem_map, Schemas.rowsOf, List.mem_filter, decide_eq_true_eq, InPrimaryKey, and_assoc]
      constructor
      · rintro ⟨v, hv, a, b, c⟩
        exact ⟨v, hv, by rw [← a, ← b, ← c]⟩
      · rintro ⟨v, hv, e⟩
        exact ⟨v, hv, by simp [e], by simp [e], by simp [e]⟩

theorem binds_plain {x : Nd} (h : PlainNode x) : binds x = [] := by cases h <;> rfl

theorem plain_path {s : Select} (hp : Plain s) {x z : Nd} {ns : List Str} (h : Path x ns z)
    (hx : Below (.s s) x) : ns = [] := by
  induction h with
  | refl => rfl
  | step x y z ns hy _ ih =>
    rw [binds_plain (hp x hx), ih (below_trans hx (below_step hy (below_refl _)))]
    rfl

theorem brings_node {t : TableExpr} (hs : Shape t) {b name : Str} (h : (b, .table name) ∈ brings norm t) :
    (∃ c sc as l, Below (.t t) (.t (.aliased (.tableName c sc name) as l))) ∨
    ∃ ps, Below (.t t) (.t (.objectName ps)) := by
  induction hs with
  | tableName c s t as l =>
    simp [brings] at h
    exact .inl ⟨c, s, as, l, by rw [h.2]; exact below_refl _⟩
  | objectName ps as l => exact .inr ⟨ps, below_step (y := .t (.objectName ps)) (by simp [kids, near]) (below_refl _)⟩
  | aliasedJoin l r c as lat _ _ _ ih1 ih2 =>
    simp only [brings, List.mem_append] at h
    have hj : ∀ z, Below (.t (.join l r c)) z → Below (.t (.aliased (.join l r c) as lat)) z :=
      fun z hz => below_step (y := .t (.join l r c)) (by simp [kids, near]) hz
    have hl : ∀ z, Below (.t l) z → Below (.t (.join l r c)) z :=
      fun z hz => below_step (y := .t l) (by simp [kids_join]) hz
    have hr : ∀ z, Below (.t r) z → Below (.t (.join l r c)) z :=
      fun z hz => below_step (y := .t r) (by simp [kids_join]) hz
    rcases h with h | h
    · rcases ih1 h with ⟨c, sc, as, l, h⟩ | ⟨ps, h⟩
      · exact .inl ⟨c, sc, as, l, hj _ (hl _ h)⟩
      · exact .inr ⟨ps, hj _ (hl _ h)⟩
    · rcases ih2 h with ⟨c, sc, as, l, h⟩ | ⟨ps, h⟩
      · exact .inl ⟨c, sc, as, l, hj _ (hr _ h)⟩
      · exact .inr ⟨ps, hj _ (hr _ h)⟩
  | join l r c _ _ _ ih1 ih2 =>
    simp only [brings, List.mem_append] at h
    have hl : ∀ z, Below (.t l) z → Below (.t (.join l r c)) z :=
      fun z hz => below_step (y := .t l) (by simp [kids_join]) hz
    have hr : ∀ z, Below (.t r) z → Below (.t (.join l r c)) z :=
      fun z hz => below_step (y := .t r) (by simp [kids_join]) hz
    rcases h with h | h
    · rcases ih1 h with ⟨c, sc, as, l, h⟩ | ⟨ps, h⟩
      · exact .inl ⟨c, sc, as, l, hl _ h⟩
      · exact .inr ⟨ps, hl _ h⟩
    · rcases ih2 h with ⟨c, sc, as, l, h⟩ | ⟨ps, h⟩
      · exact .inl ⟨c, sc, as, l, hr _ h⟩
      · exact .inr ⟨ps, hr _ h⟩
  | _ => simp [brings] at h

theorem item_below {s : Select} {t : TableExpr} (ht : t ∈ fromItems s) : Below (.s s) (.t t) := by
  obtain ⟨id, w, orderBy, limit, body⟩ := s
  cases body with
  | clause exprs tables where_ groupBy having window distinctOn =>
    have ht' : t ∈ tables := ht
    exact below_near (y := .b (.clause exprs tables where_ groupBy having window distinctOn))
      (by simp [near]) (below_near (y := .t t) (by simp [near, ht']) (below_refl _))
  | _ => simp [fromItems] at ht

/-- the tables in FROM clauses are the tables read -/
theorem source_read {s x : Select} (hp : Plain s) (hr : NoRemoteSubquery s) (hx : Below (.s s) (.s x))
    {names : List Str} (hn : collectTableNames norm o.names (.select s) = .ok (.ok names))
    {b t : Str} (h : (b, .table t) ∈ sources norm x) : ReadsTable norm s t := by
  obtain ⟨ti, hti, h⟩ := List.mem_flatMap.mp h
  rcases brings_node (plain_shape (plain_below hp hx) ti hti) h with ⟨c, sc, as, l, h⟩ | ⟨ps, h⟩
  · obtain ⟨ns, hpath⟩ := below_trans hx (below_trans (item_below hti) h)
    have := plain_path hp hpath (below_refl _)
    subst this
    exact ⟨[], c, sc, as, l, hpath, by simp⟩
  · exfalso
    obtain ⟨es, hne, he⟩ := C65_refuses norm o.names s (.t (.objectName ps))
      (below_trans hx (below_trans (item_below hti) h)) (.objectName ps) (by
        rintro u v hu hv ⟨ns, hz⟩
        obtain ⟨e, rfl⟩ := remote_expr u v hv
        obtain ⟨id, b, hsub⟩ := expr_subquery hz e rfl (by simp)
        exact hr u _ id b hu hv hsub)
    rw [hn] at he
    cases he

theorem means_real {db : Name → Option TableSchema} {sc : Scope} {c : FieldColumn} {t n : Str}
    (h : Means db sc c t n) : ∃ m, Real db t m := by
  induction h with
  | own h => exact ⟨_, h.2.1⟩
  | derived _ _ _ _ _ _ _ _ _ ih => exact ih

theorem uses_real {db : Name → Option TableSchema} {sc : Scope} {t n : Str} {ty : FieldType}
    (h : Fields.Uses db sc t n ty) : ∃ m, Real db t m := by
  obtain ⟨_, _, _, _, _, _, _, _, h | ⟨_, _, _, h⟩⟩ := h
  · exact means_real h
  · exact ⟨_, h.2.2.2.1⟩

theorem names_errors {ord : List Str → List Str} {stmt : Stmt} {es : List Err}
    (h : collectTableNames norm ord stmt = .ok (.error es)) : es ≠ [] := by
  unfold collectTableNames at h
  split at h
  · simp only [Except.ok.injEq, Except.error.injEq] at h
    subst h
    exact List.cons_ne_nil _ _
  · split at h
    · cases h
    · split at h
      · simp only [Except.ok.injEq, Except.error.injEq] at h
        subst h
        assumption
      · split at h
        · simp only [Except.ok.injEq, Except.error.injEq] at h
          subst h
          assumption
        · cases h

theorem scopes_errors {schema : Str} {stmt : Stmt} {es : List Err}
    (h : collectStmtScopes norm schema fuel stmt = .ok (.error es)) : es ≠ [] := by
  unfold collectStmtScopes at h
  split at h
  · simp only [Except.ok.injEq, Except.error.injEq] at h
    subst h
    exact List.cons_ne_nil _ _
  · split at h
    · cases h
    · split at h
      · simp only [Except.ok.injEq, Except.error.injEq] at h
        subst h
        assumption
      · split at h
        · simp only [Except.ok.injEq, Except.error.injEq] at h
          subst h
          assumption
        · split at h <;> cases h

/-! ## C68 -/

/-- **C69.** For a plain query without a comma in FROM and without subqueries in the places the walker
skips, the analysis returns suggestions or errors, whatever the catalogue answers; it does not crash and
does not run forever, and a failure that is the query's fault has at least one message.  (Missing: other queries; see the counterexamples below.) -/
theorem C69_returns_partial (o : Orders) (norm : Str → Str) (cols : List Str → Except ε (List T))
    (f : T → Name × Name × Bool) (s : Select) (hp : Plain s) (hf : Fresh s) (hr : NoRemoteSubquery s)
    (hs : SingleFrom s) (fuel : Nat) (hn : sizeOf s ≤ fuel) :
    ∃ r, listPossibleIndexes o norm fuel cols f (.select s) = .ok r ∧
      ∀ es, r = .error (.query es) → es ≠ [] := by
  obtain ⟨r1, h1⟩ := C65_total norm o.names (.select s)
  obtain ⟨r2, h2⟩ := C50_returns_partial (norm := norm) (schema := public_) s hp hf fuel hn
  simp only [listPossibleIndexes, h1]
  cases r1 with
  | error es =>
    refine ⟨_, rfl, ?_⟩
    rintro _ ⟨⟩
    exact names_errors h1
  | ok names =>
    cases h3 : Schemas.collectTableSchemas (cols names) f names with
    | error e =>
      rcases (Schemas.C20_collect_error f names (cols names) e).mp h3 with
        ⟨_, _, rfl⟩ | ⟨_, _, _, _, _, _, _, _, rfl⟩ <;> simp only [h3] <;> exact ⟨_, rfl, nofun⟩
    | ok schemas =>
      simp only [h2, h3]
      cases r2 with
      | error es =>
        refine ⟨_, rfl, ?_⟩
        rintro _ ⟨⟩
        exact scopes_errors h2
      | ok scopes =>
        have hl := C64_linked s hp hf hr hs fuel hn scopes h2
        have hsub : ∀ sc, Linked sc → SubsNamed sc := by
          intro sc hl x hx
          have hl' : Linked x := by
            induction hx with
            | here => exact hl
            | sub hy _ ih => cases hl with | mk _ _ _ _ _ _ _ _ _ h => exact ih (h _ hy)
            | field hy _ ih => cases hl with | mk _ _ _ _ _ _ _ _ h _ => exact ih (h _ hy)
          cases hl' with
          | mk _ _ _ _ _ _ _ h _ _ => exact h
        have hnp := C66_suggest_no_crash o.set o.key o.entry o.sort schemas scopes
          fun sc hsc => hsub sc (hl sc hsc).1
        cases h4 : suggest o.set o.key o.entry o.sort schemas scopes with
        | error e =>
          cases e with
          | fields e =>
            cases e with
            | panic => exact absurd h4 hnp
            | _ => (refine ⟨_, by simp only [h4]; rfl, ?_⟩; nofun)
          | _ => (refine ⟨_, by simp only [h4]; rfl, ?_⟩; nofun)
        | ok its => (refine ⟨_, by simp only [h4]; rfl, ?_⟩; nofun)

/-- **C68.** Every suggested index is on a table that the query reads, in some FROM clause; its columns
are columns of that table in the catalogue, all different, and each is named somewhere in the query. -/
theorem C68_suggestions_sound (o : Orders) (ho : o.Ok) (norm : Str → Str)
    (cols : List Str → Except ε (List T)) (f : T → Name × Name × Bool) (s : Select) (hp : Plain s)
    (hf : Fresh s) (hr : NoRemoteSubquery s) (fuel : Nat) (hn : sizeOf s ≤ fuel) (out : List IndexTarget)
    (h : listPossibleIndexes o norm fuel cols f (.select s) = .ok (.ok out)) :
    ∃ names rows, cols names = .ok rows ∧
      (∀ n, n ∈ names ↔ ∃ table, ReadsTable norm s table ∧ n = norm table) ∧
      ∀ t ∈ out, t.tableName ∈ names ∧ t.columns ≠ [] ∧ (t.columns.map (·.name)).Nodup ∧
        ∀ c ∈ t.columns, HasColumn f rows t.tableName c.name ∧
          ∃ x, Below (.s s) (.s x) ∧ ∃ p ∈ places norm x, ∃ a, Mentions p.2.2 (.column a c.name) := by
  obtain ⟨names, rows, schemas, scopes, h1, h2, h3, h4, h5⟩ := list_ok h
  refine ⟨names, rows, h2, ?_, ?_⟩
  · intro n
    constructor
    · intro hm
      obtain ⟨table, e, ht⟩ := (C65_names_sound norm o.names ho.names s names h1).2 n hm
      exact ⟨table, ht, e⟩
    · rintro ⟨table, ht, rfl⟩
      exact C65_names_complete_partial norm o.names ho.names s names h1 hr table ht
  · obtain ⟨ν, sc, rfl, -, hd, -⟩ := C63_scope_describes s hp hf hr fuel hn scopes h4
    intro t ht
    obtain ⟨sch, hs1, hs2, hs3, hs4, hs5⟩ := C17_only_real_columns _ _ _ _ ho.choices _ _ _ h5 t ht
    obtain ⟨m1, m2, -⟩ := (schemas_mem h3).2 sch hs1
    refine ⟨hs2 ▸ m1, hs3, hs4, ?_⟩
    intro c hc
    refine ⟨hs2 ▸ (m2 _).mp (hs5 c hc), ?_⟩
    obtain ⟨sc', hsc', -, huse⟩ := C66_suggested_is_mentioned _ _ _ _ ho.choices _ _ _ h5 t ht
    rw [List.mem_singleton] at hsc'
    subst hsc'
    obtain ⟨ty, x, hx, fl, hfl, u, hu, huse, e, -⟩ := huse c hc
    obtain ⟨x', hb, hdx⟩ := inside_below hx s hd
    obtain ⟨p, hpp, hpf⟩ := (describes_shown hdx).field_place fl hfl
    refine ⟨x', hb, p, hpp, ?_⟩
    rcases (hpf.2.1 u).mp hu with ⟨a, n, hm, rfl⟩ | ⟨a, _, rfl⟩ | ⟨y, _, rfl⟩
    · exact ⟨a, e ▸ hm⟩
    · exact absurd rfl huse.2
    · exact absurd rfl huse.1

/-- **C68.** No column in a condition is forgotten: take any columns of a table that the query uses in WHERE
or ON, at any depth, directly, through FROM subqueries, or from a subquery in an expression into the
query around it; any order, no repetition.  An index on exactly these is among the suggestions, unless
they all belong to the primary key. -/
theorem C68_conditions_suggested (o : Orders) (ho : o.Ok) (norm : Str → Str)
    (cols : List Str → Except ε (List T)) (f : T → Name × Name × Bool) (s : Select) (hp : Plain s)
    (hf : Fresh s) (hr : NoRemoteSubquery s) (hs : SingleFrom s) (hname : OrdinaryNames norm s)
    (fuel : Nat) (hn : sizeOf s ≤ fuel) (out : List IndexTarget)
    (h : listPossibleIndexes o norm fuel cols f (.select s) = .ok (.ok out)) :
    ∃ names rows, cols names = .ok rows ∧
      (∀ n, n ∈ names ↔ ∃ table, ReadsTable norm s table ∧ n = norm table) ∧
      (OrdinaryRows f rows → ∀ t cs, norm t = t → cs ≠ [] → cs.Nodup →
        (∀ n ∈ cs, UsesColumn norm (HasColumn f rows) s t n .condition) →
        (∃ n ∈ cs, ¬InPrimaryKey f rows t n) → newIndexTarget t cs ∈ out) := by
  obtain ⟨names, rows, schemas, scopes, h1, h2, h3, h4, h5⟩ := list_ok h
  have hnames : ∀ n, n ∈ names ↔ ∃ table, ReadsTable norm s table ∧ n = norm table := by
    intro n
    constructor
    · intro hm
      obtain ⟨table, e, ht⟩ := (C65_names_sound norm o.names ho.names s names h1).2 n hm
      exact ⟨table, ht, e⟩
    · rintro ⟨table, ht, rfl⟩
      exact C65_names_complete_partial norm o.names ho.names s names h1 hr table ht
  refine ⟨names, rows, h2, hnames, ?_⟩
  intro hrow t cs ht hne hnd hu hk
  obtain ⟨ν, sc, rfl, -, hd, hclear⟩ := C49_keeps_tables_partial s hp hf hr hs fuel hn scopes h4
  obtain ⟨hs1, hs2⟩ := schemas_mem h3
  have hhas : ∀ t n, Real (schemaMap schemas) t n → HasColumn f rows t n := by
    rintro t n ⟨sch, h6, h7⟩
    obtain ⟨h8, rfl⟩ := schemaMap_mem h6
    exact ((hs2 sch h8).2.1 n).mp h7
  have hset : Setting norm (HasColumn f rows) (schemaMap schemas) ν s sc := by
    refine ⟨hp, hname, hd, ⟨hclear.1, hclear.2⟩, hhas, ?_⟩
    intro t n hreal
    obtain ⟨v, hv, rfl, rfl⟩ := hhas t n hreal
    exact ⟨(hrow v hv).2, (hrow v hv).1⟩
  have hreal : ∀ x b, Below (.s s) (.s x) → (b, .table t) ∈ sources norm x →
      ∀ n, HasColumn f rows t n → Real (schemaMap schemas) t n := by
    intro x b hx hb n hc
    have hmem := (hnames t).mpr ⟨t, source_read hp hr hx h1 hb, ht.symm⟩
    obtain ⟨sch, h6⟩ := hs1 t hmem
    obtain ⟨h8, rfl⟩ := schemaMap_mem h6
    exact ⟨sch, h6, ((hs2 sch h8).2.1 n).mpr hc⟩
  have huses : ∀ n ∈ cs, Fields.Uses (schemaMap schemas) sc t n .condition :=
    fun n hn => uses_scope hset hreal (hu n hn)
  have hplain : OnlyPlainUses sc := by
    intro x hx fl hfl u hu' huse
    obtain ⟨x', hb, hdx⟩ := inside_below hx s hd
    obtain ⟨p, hpp, hpf⟩ := (describes_shown hdx).field_place fl hfl
    rcases (hpf.2.1 u).mp hu' with ⟨a, n, _, rfl⟩ | ⟨a, _, rfl⟩ | ⟨y, _, rfl⟩
    · exact places_type x' p hpp
    · exact absurd rfl huse.2
    · exact absurd rfl huse.1
  obtain ⟨n0, hn0, hk0⟩ := hk
  obtain ⟨sch, hsch⟩ : ∃ sch, schemaMap schemas t = some sch := by
    obtain ⟨m, sch, h6, -⟩ := uses_real (huses n0 hn0)
    exact ⟨sch, h6⟩
  obtain ⟨hm, rfl⟩ := schemaMap_mem hsch
  exact C67_conditions_suggested _ _ _ _ ho.choices schemas [sc] out h5 sc (by simp) hplain _ sch hsch cs
    hne hnd huses ⟨n0, hn0, fun hm' => hk0 (((hs2 sch hm).2.2 n0).mp hm')⟩

/-! ## A query -/

/-- nothing is rearranged -/
def idOrders : Orders := ⟨id, idOrder, idKeys, idEntries, sortT⟩

theorem idOrders_ok : idOrders.Ok :=
  ⟨fun _ => .refl _, ⟨fun _ _ => .refl _, fun _ _ => .refl _, fun _ _ => .refl _, sortT_isSort⟩⟩

/-- a catalogue -/
def exRows : List (Name × Name × Bool) :=
  [("users".toList, "id".toList, true), ("users".toList, "name".toList, false),
   ("tasks".toList, "id".toList, true), ("tasks".toList, "status".toList, false),
   ("posts".toList, "id".toList, true), ("posts".toList, "user_id".toList, false),
   ("posts".toList, "kind".toList, false), ("tags".toList, "id".toList, true),
   ("tags".toList, "user_id".toList, false)]

/-- `GetTableColumns` of it -/
def exCols (names : List Str) : Except Unit (List (Name × Name × Bool)) :=
  .ok (exRows.filter fun r => decide (r.1 ∈ names))

/-- the indexes of a success -/
def outOf {ε : Type} : Except Fail (Except (IndexErr ε) (List IndexTarget)) → Option (List IndexTarget)
  | .ok (.ok l) => some l
  | _ => none

theorem outOf_some {r : Except Fail (Except (IndexErr ε) (List IndexTarget))} {l : List IndexTarget}
    (h : outOf r = some l) : r = .ok (.ok l) := by
  unfold outOf at h
  split at h
  · simp at h; rw [h]
  · cases h

theorem exScopes_size : sizeOf exScopes ≤ 100000 := by decide +kernel

/-- no name of a FROM clause begins with `<` -/
def ordinaryB (norm : Str → Str) : Nd → Bool
  | .s x => (sources norm x).all fun q => q.1.head? ≠ some '<'
  | _ => true

theorem ordinary_of (s : Select) (n : Nat) (h : allNd (ordinaryB lower) n (.s s) = true) :
    OrdinaryNames lower s := by
  rintro x ⟨ns, hx⟩ q hq
  have := allNd_below _ hx n h
  simp only [ordinaryB, List.all_eq_true] at this
  simpa using this q hq

theorem exScopes_ordinary : OrdinaryNames lower exScopes := ordinary_of _ 20 (by decide +kernel)

def exOut : List IndexTarget :=
    [newIndexTarget (n "posts") [n "kind"], newIndexTarget (n "posts") [n "user_id"],
     newIndexTarget (n "posts") [n "kind", n "user_id"], newIndexTarget (n "posts") [n "user_id", n "kind"],
     newIndexTarget (n "tags") [n "user_id"], newIndexTarget (n "tags") [n "user_id", n "id"],
     newIndexTarget (n "tasks") [n "status"], newIndexTarget (n "users") [n "id", n "name"]]

/-- the suggestions for `exScopes` -/
theorem exScopes_out : listPossibleIndexes idOrders lower 100000 exCols id (.select exScopes) = .ok (.ok exOut) :=
  outOf_some (by decide +kernel)

/-- the same with an answer that does not look at the names asked for -/
theorem exScopes_out' : listPossibleIndexes idOrders lower 100000 (fun _ => (.ok exRows : Except Unit _)) id
    (.select exScopes) = .ok (.ok exOut) :=
  outOf_some (by decide +kernel)

/-- the hypotheses of `C69_returns_partial` and `C68_suggestions_sound` hold of `exScopes` -/
example : ∃ r, listPossibleIndexes idOrders lower 100000 exCols id (.select exScopes) = .ok r ∧
    ∀ es, r = .error (.query es) → es ≠ [] :=
  C69_returns_partial _ _ _ _ exScopes exScopes_plain exScopes_fresh exScopes_noRemote exScopes_single
    _ exScopes_size

example :=
  C68_suggestions_sound idOrders idOrders_ok lower exCols id exScopes exScopes_plain exScopes_fresh
    exScopes_noRemote _ exScopes_size _ exScopes_out

/-- the subquery `p` of `exScopes` -/
def exPosts : Select := .mk 2 none [] .none (.clause
  [.mk (.name ["user_id".toList] false) []] [.aliased (.tableName [] [] "posts".toList) [] false]
  (some (.node true [.name ["kind".toList] false, .leaf true true])) [] none false [])

/-- the condition in ON of `exScopes` -/
def exOn : Expr := .node true [.name ["id".toList, ['u']] false, .name ["user_id".toList, ['p']] false]

/-- `p.user_id` in ON is column `user_id` of `posts`: a use through a FROM subquery -/
theorem exScopes_uses : UsesColumn lower (HasColumn id exRows) exScopes (n "posts") (n "user_id") .condition := by
  refine ⟨exScopes, below_refl _, ([], .condition, exOn), by simp [places, exScopes, fromPlaces, condPlaces, exOn],
    rfl, ['p'], "user_id".toList, ?_, .inl ?_⟩
  · exact .operand _ (.name ["user_id".toList, ['p']] false) _ (by simp [operands, exOn]) (.column _)
  · have hsrc : sources lower exScopes = [(['u'], .table "users".toList), (['p'], .derived exPosts)] := rfl
    have hpl : places lower exPosts = [([], .reference, .name ["user_id".toList] false),
      ([], .condition, .node true [.name ["kind".toList] false, .leaf true true])] := rfl
    refine .derived _ exPosts ['p'] _ [] "user_id".toList _ _
      ([], .reference, .name ["user_id".toList] false) (by simp) (by decide +kernel) ?_ ?_ ?_ ?_ (.column _) ?_
    · rw [Named, hsrc]
      exact ⟨by simp, by simp⟩
    · rw [hpl]; simp
    · exact .inr ⟨rfl, _, rfl, rfl⟩
    · rw [hpl]
      intro p' hp' ho
      simp only [List.mem_cons, List.not_mem_nil, or_false] at hp'
      rcases hp' with rfl | rfl
      · rfl
      · exfalso
        rcases ho with ho | ⟨-, t, ho⟩
        · revert ho; decide +kernel
        · cases ho with
          | operand _ y _ hy hm =>
            simp only [operands, List.mem_cons, List.not_mem_nil, or_false] at hy
            rcases hy with rfl | rfl
            · generalize hr : Ref.column t "user_id".toList = r at hm
              cases hm with
              | column =>
                simp only [Ref.column.injEq] at hr
                have h2 := hr.2
                revert h2
                decide +kernel
              | operand _ y _ hy _ => simp [operands] at hy
            · cases hm with
              | operand _ y _ hy _ => simp [operands] at hy
    · have hs : sources lower exPosts = [("posts".toList, .table "posts".toList)] := rfl
      refine .only _ "posts".toList _ _ (by rw [hs]; simp [n]) ?_ ?_ ?_
      · exact ⟨("posts".toList, "user_id".toList, false), by decide +kernel, rfl, rfl⟩
      · intro b' t' h _
        rw [hs] at h
        simp at h
        exact h.2
      · rintro y (⟨t, ht, hy⟩ | ⟨p, hp, hy⟩)
        · simp only [fromItems, exPosts, List.mem_singleton] at ht
          subst ht
          simp [fromSubs] at hy
        · rw [hpl] at hp
          simp only [List.mem_cons, List.not_mem_nil, or_false] at hp
          rcases hp with rfl | rfl
          · cases hy with
            | operand _ y _ hy _ => simp [operands] at hy
          · cases hy with
            | operand _ y _ hy h =>
              simp only [operands, List.mem_cons, List.not_mem_nil, or_false] at hy
              rcases hy with rfl | rfl
              · cases h with
                | operand _ y _ hy _ => simp [operands] at hy
              · cases h with
                | operand _ y _ hy _ => simp [operands] at hy

/-- all hypotheses of `C68_conditions_suggested` hold together -/
example : newIndexTarget (n "posts") [n "user_id"] ∈ exOut := by
  obtain ⟨names, rows, h1, -, h2⟩ := C68_conditions_suggested idOrders idOrders_ok lower
    _ id exScopes exScopes_plain exScopes_fresh exScopes_noRemote
    exScopes_single exScopes_ordinary 100000 exScopes_size _ exScopes_out'
  simp only [Except.ok.injEq] at h1
  subst h1
  refine h2 (by unfold OrdinaryRows; decide +kernel) (n "posts") [n "user_id"] (by decide +kernel) (by simp) (by simp) ?_ ?_
  · intro m hm
    rw [List.mem_singleton] at hm
    subst hm
    exact exScopes_uses
  · exact ⟨n "user_id", by simp, by unfold InPrimaryKey; decide +kernel⟩

/-! ## Counterexamples -/

/-- **C69**, without the restriction: it fails.  A UNION of two plain queries that the first two steps accept
crashes the analysis. -/
theorem C69_union_crashes (o : Orders) (norm : Str → Str) (cols : List Str → Except ε (List T))
    (f : T → Name × Name × Bool) (id : Nat) (l r : Select) (hl : Plain l) (hr : Plain r)
    (hf : Fresh (.mk id none [] .none (.union l r))) (fuel : Nat) (hn : sizeOf l + sizeOf r ≤ fuel)
    (names : List Str) (schemas : List TableSchema)
    (h1 : collectTableNames norm o.names (.select (.mk id none [] .none (.union l r))) = .ok (.ok names))
    (h2 : Schemas.collectTableSchemas (cols names) f names = .ok schemas) :
    listPossibleIndexes o norm fuel cols f (.select (.mk id none [] .none (.union l r))) = .error .panic := by
  simp only [listPossibleIndexes, h1, h2, C50_union_crashes id l r hl hr hf fuel hn]

/-- `SELECT id FROM users UNION SELECT id FROM tasks` crashes. -/
example : ∃ l r, Plain l ∧ Plain r ∧ Fresh (.mk 0 none [] .none (.union l r)) ∧
    listPossibleIndexes idOrders lower 100000 exCols _root_.id (.select (.mk 0 none [] .none (.union l r))) =
      .error .panic := by
  let q : Nat → String → Select := fun i t => .mk i none [] .none (.clause [.mk (.name ["id".toList] false) []]
    [.aliased (.tableName [] [] t.toList) [] false] none [] none false [])
  have h1 : Plain (q 1 "users") := plain_of _ 20 (by decide +kernel)
  have h2 : Plain (q 2 "tasks") := plain_of _ 20 (by decide +kernel)
  have h3 : Fresh (.mk 0 none [] .none (.union (q 1 "users") (q 2 "tasks"))) :=
    fresh_of _ 20 (by decide +kernel) (by decide +kernel) (by decide +kernel)
  exact ⟨q 1 "users", q 2 "tasks", h1, h2, h3, C69_union_crashes _ _ _ _ 0 _ _ h1 h2 h3 _ (by decide +kernel)
    ["users".toList, "tasks".toList]
    [⟨"users".toList, ["id".toList, "name".toList], ["id".toList]⟩,
     ⟨"tasks".toList, ["id".toList, "status".toList], ["id".toList]⟩] (by decide +kernel) (by decide +kernel)⟩

/-- **C69**, without the restriction: it fails.  A derived table before a comma in FROM,
`SELECT x.id FROM (SELECT id FROM users) x, tasks`, crashes the analysis. -/
theorem C69_comma_crashes : Plain exCommaDerived ∧ Fresh exCommaDerived ∧ NoRemoteSubquery exCommaDerived ∧
    listPossibleIndexes idOrders lower 30 exCols id (.select exCommaDerived) = .error .panic := by
  refine ⟨plain_of _ 20 (by decide +kernel),
    fresh_of _ 20 (by decide +kernel) (by decide +kernel) (by decide +kernel),
    noRemote_of _ 20 (by decide +kernel), ?_⟩
  have key : ∀ r : Except Fail (Except (IndexErr Unit) (List IndexTarget)),
      (match r with | .error .panic => true | _ => false) = true → r = .error .panic := by
    intro r h
    split at h
    · rfl
    · cases h
  exact key _ (by decide +kernel)

end Verif.PgScope
