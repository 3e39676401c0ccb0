import Verif.Cmd.Suggest
import Verif.Infra.IndexInfo
import Verif.MyScope.Examples
import Verif.PgScope.Around
import Verif.PgScope.EndToEnd
/-!
# C73, C74: from the text of a query to the suggested and the examined indexes

The whole of `IndexSuggester.Suggest`: parse, list the possible indexes, remove those that exist.
-/
namespace Verif.Cmd
open Verif.Index Verif.Index.Spec Verif.Examine Verif.Builder Verif.Lib
open Verif.PgScope (HasColumn InPrimaryKey Fail)
open Verif.Sql

/-! ## Model -/

/-- How `Suggest` ends without suggestions: it crashes (or runs forever), the parser refuses the text, there
are several statements, the listing reports `l`, there is no table to ask for, or the database fails. -/
inductive Stop (L E : Type) where
  | fail (x : Fail)
  | parse (e : E)
  | multiple
  | list (l : L)
  | emptyIn
  | read (e : E)
deriving DecidableEq

/-- `/repo/database/mysql/mservice/parse.go:8-15` `Parse`; `p.Parse` is the oracle `parse`. -/
def mysqlParse {Stmt L E : Type} (parse : Str → Except E (List Stmt)) (query : Str) :
    Except (Stop L E) Stmt :=
  match parse query with
  | .error e => .error (.parse e)
  | .ok [] => .error (.fail .panic)
  | .ok (s :: _) => .ok s

/-- `/repo/database/postgres/pservice/parse.go:8-18` `Parse`; `parser.Parse` is the oracle `parse`. -/
def pgParse {Stmt L E : Type} (parse : Str → Except E (List Stmt)) (query : Str) :
    Except (Stop L E) Stmt :=
  match parse query with
  | .error e => .error (.parse e)
  | .ok [] => .error (.fail .panic)
  | .ok [s] => .ok s
  | .ok (_ :: _ :: _) => .error .multiple

/-- `/repo/database/dservice/existing_index_remover.go:26-40` for the targets just built: each is a pointer
of its own, here the target with its position. -/
def removeExisting {X : Type} (fold : Char → Char) (get : List Str → Except X (List IndexTarget))
    (its : List IndexTarget) : Except X (List IndexTarget) :=
  match Remover.remove fold Prod.fst get its.zipIdx with
  | .error e => .error e
  | .ok out => .ok (out.map Prod.fst)

/-- `/repo/infra/mysql/db.go:78-92` `GetIndexes` and `/repo/database/mysql/mservice/index_getter.go:17-26`;
`select` is the query on the catalogue. -/
def mysqlIndexes {L E : Type} (select : List Str → Except E (List Infra.FlatRow)) (tables : List Str) :
    Except (Stop L E) (List IndexTarget) :=
  if tables = [] then .error .emptyIn
  else match select tables with
    | .error e => .error (.read e)
    | .ok rows => match Infra.toIndexInfo rows with
      | none => .error (.fail .panic)
      | some infos => .ok (infos.map fun i => newIndexTarget i.table i.columns)

/-- `/repo/infra/postgres/db.go:71-85` `GetIndexes`, `/repo/infra/postgres/index_info.go:41-48` and
`/repo/database/postgres/pservice/index_getter.go:17-26`; a row is a table and its `column_names`.  For
Hasura (`strict` is false; `/repo/infra/hasura/index_info.go:32-71` as in `Infra/Hasura.lean`,
`/repo/database/hasura/hservice/index_getter.go:17-26`) an empty list of tables is sent too. -/
def pgIndexes {L E : Type} (strict : Bool) (select : List Str → Except E (List (Str × List Str)))
    (tables : List Str) : Except (Stop L E) (List IndexTarget) :=
  if strict = true ∧ tables = [] then .error .emptyIn
  else match select tables with
    | .error e => .error (.read e)
    | .ok rows => .ok (rows.map fun r => newIndexTarget r.1 r.2)

/-- What surrounds the MySQL suggester: the parser, the orders Go leaves open, lower-casing, the two
catalogue queries (`f` reads a row of the first) and case folding. -/
structure MyEnv (T E : Type) where
  parse : Str → Except E (List MyScope.Stmt)
  orders : MyScope.Orders
  norm : Str → Str
  cols : List Str → Except E (List T)
  f : T → Str × Str × Bool
  select : List Str → Except E (List Infra.FlatRow)
  fold : Char → Char

/-- the errors the listing reports; only one of them is shown -/
inductive ListErr (Q E : Type) where
  | query (q : Q)
  | schemas (e : Schemas.Err E)
  | build (e : BuildErr Fields.Err)

/-- `/repo/database/mysql/mservice/index_suggester.go:23-40` `Suggest`.  When there were errors but none is
listed, `len(errs) > 0` is false and the run goes on with no targets. -/
def mysqlSuggest {T E : Type} (v : MyEnv T E) (query : Str) :
    Except (Stop (ListErr MyScope.Err E) E) (List IndexTarget) :=
  match mysqlParse v.parse query with
  | .error e => .error e
  | .ok stmt => match MyScope.listPossibleIndexes v.orders v.norm v.cols v.f stmt with
    | none => .error (.fail .panic)
    | some (.error (.query (e :: _))) => .error (.list (.query e))
    | some (.error (.query [])) => removeExisting v.fold (mysqlIndexes v.select) []
    | some (.error (.schemas e)) => .error (.list (.schemas e))
    | some (.error (.build e)) => .error (.list (.build e))
    | some (.ok its) => removeExisting v.fold (mysqlIndexes v.select) its

/-- The same for PostgreSQL and Hasura.  `strict`: see `pgIndexes`.  `fuel` bounds the nesting followed; see `PgScope.listPossibleIndexes`. -/
structure PgEnv (T E : Type) where
  parse : Str → Except E (List PgScope.Stmt)
  orders : PgScope.Orders
  norm : Str → Str
  fuel : Nat
  cols : List Str → Except E (List T)
  f : T → Str × Str × Bool
  strict : Bool
  select : List Str → Except E (List (Str × List Str))
  fold : Char → Char

/-- `/repo/database/postgres/pservice/index_suggester.go:22-39` and
`/repo/database/hasura/hservice/index_suggester.go:21-38` `Suggest` -/
def pgSuggest {T E : Type} (v : PgEnv T E) (query : Str) :
    Except (Stop (ListErr PgScope.Err E) E) (List IndexTarget) :=
  match pgParse v.parse query with
  | .error e => .error e
  | .ok stmt => match PgScope.listPossibleIndexes v.orders v.norm v.fuel v.cols v.f stmt with
    | .error x => .error (.fail x)
    | .ok (.error (.query (e :: _))) => .error (.list (.query e))
    | .ok (.error (.query [])) => removeExisting v.fold (pgIndexes v.strict v.select) []
    | .ok (.error (.schemas e)) => .error (.list (.schemas e))
    | .ok (.error (.build e)) => .error (.list (.build e))
    | .ok (.ok its) => removeExisting v.fold (pgIndexes v.strict v.select) its

/-! ## Specification -/

/-- names equal up to case, in order -/
def SameNames (fold : Char → Char) (a b : List Str) : Prop := a.map (·.map fold) = b.map (·.map fold)

/-- The rows of `information_schema.STATISTICS` show an index of the table on exactly the columns, in this
order: the columns of all rows with one table and index name. -/
def MysqlHas (fold : Char → Char) (rows : List Infra.FlatRow) (table : Str) (cs : List Str) : Prop :=
  ∃ index, (∃ r ∈ rows, r.table = table ∧ r.index = index) ∧
    SameNames fold cs (Infra.colsOf rows (table, index))

/-- The rows of the index query show an index of the table on exactly the columns. -/
def PgHas (fold : Char → Char) (rows : List (Str × List Str)) (table : Str) (cs : List Str) : Prop :=
  ∃ r ∈ rows, r.1 = table ∧ SameNames fold cs r.2

/-- the rows come as the query orders them -/
def MysqlRowsOk (rows : List Infra.FlatRow) : Prop :=
  Infra.Contiguous rows ∧ ∀ r ∈ rows, r.table ≠ [] ∨ r.index ≠ []

/-! ## Lemmas -/

theorem removeExisting_ok {X : Type} {fold : Char → Char} {get : List Str → Except X (List IndexTarget)}
    {its out : List IndexTarget} (h : removeExisting fold get its = .ok out) :
    ∃ tables existing, get tables = .ok existing ∧ (∀ t, t ∈ tables ↔ ∃ p ∈ its, p.tableName = t) ∧
      (∀ t, t ∈ out ↔ t ∈ its ∧ ¬Remover.Covered fold existing t) ∧ out.Sublist its := by
  simp only [removeExisting] at h
  split at h
  · cases h
  · next out' ho =>
    cases h
    obtain ⟨tables, existing, h1, -, h2, h3, -, h4⟩ := Remover.C11_keeps_uncovered _ _ _ _ _ ho
    have hmem : ∀ t, t ∈ its ↔ ∃ p ∈ its.zipIdx, p.1 = t := by
      intro t
      rw [← List.mem_map (f := Prod.fst), List.zipIdx_map_fst]
    refine ⟨tables, existing, h1, ?_, ?_, ?_⟩
    · intro t
      rw [h2]
      constructor
      · rintro ⟨p, hp, e⟩
        exact ⟨p.1, (hmem _).mpr ⟨p, hp, rfl⟩, e⟩
      · rintro ⟨p, hp, e⟩
        obtain ⟨q, hq, rfl⟩ := (hmem _).mp hp
        exact ⟨q, hq, e⟩
    · intro t
      rw [List.mem_map]
      constructor
      · rintro ⟨p, hp, rfl⟩
        obtain ⟨h5, h6⟩ := (h3 p).mp hp
        exact ⟨(hmem _).mpr ⟨p, h5, rfl⟩, h6⟩
      · rintro ⟨ht, hc⟩
        obtain ⟨p, hp, rfl⟩ := (hmem _).mp ht
        exact ⟨p, (h3 p).mpr ⟨hp, hc⟩, rfl⟩
    · have := h4.map Prod.fst
      rwa [List.zipIdx_map_fst] at this

theorem mysqlIndexes_ok {L E : Type} {select : List Str → Except E (List Infra.FlatRow)} {tables : List Str}
    {existing : List IndexTarget} (h : mysqlIndexes (L := L) select tables = .ok existing) :
    ∃ rows, select tables = .ok rows ∧ (MysqlRowsOk rows → ∀ fold t,
      Remover.Covered fold existing t ↔ MysqlHas fold rows t.tableName (t.columns.map (·.name))) := by
  simp only [mysqlIndexes] at h
  split at h
  · cases h
  · split at h
    · cases h
    · next rows hs =>
      split at h
      · cases h
      · next infos hi =>
        cases h
        refine ⟨rows, hs, fun hok fold t => ?_⟩
        obtain ⟨infos', h1, ks, -, hks, -, rfl⟩ := Infra.C39_grouped rows hok.1 hok.2
        rw [hi] at h1
        simp only [Option.some.injEq] at h1
        subst h1
        constructor
        · rintro ⟨i, hi, ht, hsame⟩
          simp only [List.map_map, List.mem_map] at hi
          obtain ⟨k, hk, rfl⟩ := hi
          obtain ⟨r, hr, hkey⟩ := (hks k).mp hk
          simp only [Function.comp, newIndexTarget] at ht hsame
          subst hkey
          refine ⟨r.index, ⟨r, hr, ht, rfl⟩, ?_⟩
          rw [← ht]
          simpa [SameNames, SameColumns, Function.comp_def, Infra.FlatRow.key] using hsame
        · rintro ⟨index, ⟨r, hr, ht, rfl⟩, hsame⟩
          refine ⟨newIndexTarget t.tableName (Infra.colsOf rows (t.tableName, r.index)), ?_, rfl, ?_⟩
          · simp only [List.map_map, List.mem_map]
            exact ⟨(t.tableName, r.index), (hks _).mpr ⟨r, hr, by simp [Infra.FlatRow.key, ht]⟩, rfl⟩
          · simpa [SameNames, SameColumns, Function.comp_def, newIndexTarget] using hsame

theorem pgIndexes_ok {L E : Type} {strict : Bool} {select : List Str → Except E (List (Str × List Str))} {tables : List Str}
    {existing : List IndexTarget} (h : pgIndexes (L := L) strict select tables = .ok existing) :
    ∃ rows, select tables = .ok rows ∧ ∀ fold t,
      Remover.Covered fold existing t ↔ PgHas fold rows t.tableName (t.columns.map (·.name)) := by
  simp only [pgIndexes] at h
  split at h
  · cases h
  · split at h
    · cases h
    · next rows hs =>
      cases h
      refine ⟨rows, hs, fun fold t => ?_⟩
      constructor
      · rintro ⟨i, hi, ht, hsame⟩
        obtain ⟨r, hr, rfl⟩ := List.mem_map.mp hi
        exact ⟨r, hr, ht, by simpa [SameNames, SameColumns, Function.comp_def, newIndexTarget] using hsame⟩
      · rintro ⟨r, hr, ht, hsame⟩
        exact ⟨_, List.mem_map.mpr ⟨r, hr, rfl⟩, ht, by
          simpa [SameNames, SameColumns, Function.comp_def, newIndexTarget] using hsame⟩

/-- what a success of the MySQL suggester goes through -/
theorem mysqlSuggest_ok {T E : Type} {v : MyEnv T E} {query : Str} {out : List IndexTarget}
    (h : mysqlSuggest v query = .ok out) :
    ∃ stmt rest its, v.parse query = .ok (stmt :: rest) ∧
      MyScope.listPossibleIndexes v.orders v.norm v.cols v.f stmt = some (.ok its) ∧
      removeExisting v.fold (mysqlIndexes (L := ListErr MyScope.Err E) v.select) its = .ok out := by
  simp only [mysqlSuggest, mysqlParse] at h
  cases hp : v.parse query with
  | error e => simp [hp] at h
  | ok l =>
    cases l with
    | nil => simp [hp] at h
    | cons stmt rest =>
      simp only [hp] at h
      obtain ⟨r, hr, hne⟩ := MyScope.C72_returns v.orders v.norm v.cols v.f stmt
      rw [hr] at h
      match r with
      | .ok its => exact ⟨stmt, rest, its, rfl, hr, h⟩
      | .error (.query []) => exact absurd rfl (hne _ rfl)
      | .error (.query (e :: es)) => cases h
      | .error (.schemas e) => cases h
      | .error (.build e) => cases h

/-! ## C73: MySQL -/

/-- **C73.** When the MySQL suggester answers, it read the first statement of the text, a SELECT.  Every
suggested index is on a table in FROM of this SELECT; its columns are columns of that table, all
different, each mentioned by a clause of this SELECT; and the catalogue, asked about the table, shows no index on exactly these columns in this order. -/
theorem C73_mysql_sound {T E : Type} (v : MyEnv T E) (ho : v.orders.Ok) (query : Str)
    (out : List IndexTarget) (h : mysqlSuggest v query = .ok out) :
    ∃ s rest names rows tables irows, v.parse query = .ok (.select s :: rest) ∧
      v.cols names = .ok rows ∧ v.select tables = .ok irows ∧
      ((∀ x ∈ rows, (v.f x).1 ≠ []) → ∀ t ∈ out,
        (∃ j schema name as, MyScope.Spec.fromOf s = some j ∧
          MyScope.Spec.FromItem j (.source (.table schema name) as) ∧ t.tableName = v.norm name) ∧
        t.columns ≠ [] ∧ (t.columns.map (·.name)).Nodup ∧
        (∀ c ∈ t.columns, HasColumn v.f rows t.tableName c.name ∧
          ∃ as ty e q n, (as, ty, .expr e) ∈ MyScope.Spec.places v.norm s ∧
            MyScope.Spec.Mentions e q n ∧ c.name = v.norm n) ∧
        t.tableName ∈ tables ∧
        (MysqlRowsOk irows → ¬MysqlHas v.fold irows t.tableName (t.columns.map (·.name)))) := by
  obtain ⟨stmt, rest, its, h1, h2, h3⟩ := mysqlSuggest_ok h
  obtain ⟨s, names, rows, rfl, h4, -, h5⟩ :=
    MyScope.C72_suggestions_sound v.orders ho v.norm v.cols v.f stmt its h2
  obtain ⟨tables, existing, h6, h7, h8, -⟩ := removeExisting_ok h3
  obtain ⟨irows, h9, h10⟩ := mysqlIndexes_ok h6
  refine ⟨s, rest, names, rows, tables, irows, h1, h4, h9, fun hrow t ht => ?_⟩
  obtain ⟨ht1, ht2⟩ := (h8 t).mp ht
  obtain ⟨a1, a2, a3, a4⟩ := h5 hrow t ht1
  exact ⟨a1, a2, a3, a4, (h7 _).mpr ⟨t, ht1, rfl⟩, fun hok hm => ht2 ((h10 hok _ _).mpr hm)⟩

/-- **C73.** Nothing useful is held back: any columns of one table that the SELECT uses in WHERE or ON, in
any order, are suggested as an index unless they all belong to the primary key or the catalogue shows
such an index already.  (Missing, as in C72: conditions of nested queries.) -/
theorem C73_mysql_complete_partial {T E : Type} (v : MyEnv T E) (ho : v.orders.Ok) (query : Str)
    (s : MyScope.Select) (rest : List MyScope.Stmt) (hp : v.parse query = .ok (.select s :: rest))
    (out : List IndexTarget) (h : mysqlSuggest v query = .ok out) :
    ∃ names rows tables irows, v.cols names = .ok rows ∧ v.select tables = .ok irows ∧
      (∀ name, MyScope.Spec.ReadsTable v.norm s name → v.norm name ∈ names) ∧
      (MysqlRowsOk irows →
        ∀ name cs, MyScope.Spec.ReadsTable v.norm s name → cs ≠ [] → cs.Nodup →
        (∀ n ∈ cs, MyScope.Spec.UsesColumn v.norm (HasColumn v.f rows) s (v.norm name) n .condition) →
        (∃ n ∈ cs, ¬InPrimaryKey v.f rows (v.norm name) n) →
        newIndexTarget (v.norm name) cs ∈ out ∨
          (v.norm name ∈ tables ∧ MysqlHas v.fold irows (v.norm name) cs)) := by
  obtain ⟨stmt, rest', its, h1, h2, h3⟩ := mysqlSuggest_ok h
  rw [hp] at h1
  simp only [Except.ok.injEq, List.cons.injEq] at h1
  obtain ⟨rfl, rfl⟩ := h1
  obtain ⟨names, rows, h4, h5, h6⟩ :=
    MyScope.C72_conditions_suggested_partial v.orders ho v.norm v.cols v.f s its h2
  obtain ⟨tables, existing, h7, h8, h9, -⟩ := removeExisting_ok h3
  obtain ⟨irows, h10, h11⟩ := mysqlIndexes_ok h7
  refine ⟨names, rows, tables, irows, h4, h10, h5, fun hok name cs hr hne hnd hu hk => ?_⟩
  have hin := h6 name cs hr hne hnd hu hk
  have hnames : (newIndexTarget (v.norm name) cs).columns.map (·.name) = cs := by
    simp [newIndexTarget, Function.comp_def]
  by_cases hc : Remover.Covered v.fold existing (newIndexTarget (v.norm name) cs)
  · right
    have := (h11 hok _ _).mp hc
    rw [hnames] at this
    exact ⟨(h8 _).mpr ⟨_, hin, rfl⟩, this⟩
  · exact .inl ((h9 _).mpr ⟨hin, hc⟩)

/-- **C73.** Only the first statement of the text matters to the MySQL suggester; whatever follows it is
ignored without a message. -/
theorem C73_mysql_rest_ignored {T E : Type} (v : MyEnv T E) (query query' : Str) (s : MyScope.Stmt)
    (rest rest' : List MyScope.Stmt) (h : v.parse query = .ok (s :: rest))
    (h' : v.parse query' = .ok (s :: rest')) : mysqlSuggest v query = mysqlSuggest v query' := by
  simp only [mysqlSuggest, mysqlParse, h, h']

/-- **C73.** A statement that is no SELECT, or refers to tables in a way not supported, is reported as such;
the catalogue is not asked. -/
theorem C73_mysql_refusal_shown {T E : Type} (v : MyEnv T E) (query : Str) (stmt : MyScope.Stmt)
    (rest : List MyScope.Stmt) (h : v.parse query = .ok (stmt :: rest))
    (hs : ∀ s, stmt = .select s → ∃ z, MyScope.Spec.Below (.s s) z ∧ MyScope.Spec.Refused z) :
    ∃ e, ∀ cols select, mysqlSuggest { v with cols := cols, select := select } query =
      .error (.list (.query e)) := by
  obtain ⟨r, h1, h2⟩ := MyScope.C70_total v.norm v.orders.names stmt
  cases r with
  | ok names =>
    cases stmt with
    | setOpr => cases h1
    | other => cases h1
    | select s =>
      obtain ⟨z, hz, hr⟩ := hs s rfl
      exact absurd hr ((MyScope.C70_accepts_iff v.norm v.orders.names s).mp ⟨names, h1⟩ z hz)
  | error es =>
    cases es with
    | nil => exact absurd rfl (h2 _ rfl)
    | cons e es =>
      refine ⟨e, fun cols select => ?_⟩
      simp only [mysqlSuggest, mysqlParse, h, MyScope.listPossibleIndexes, h1]

theorem loop_some : ∀ (rows : List Infra.FlatRow) (infos : List Infra.IndexInfo) (a b : Str), infos ≠ [] →
    ∃ out, Infra.toIndexInfoLoop rows infos a b = some out
  | [], infos, _, _, _ => ⟨infos, rfl⟩
  | r :: rows, infos, a, b, h => by
    rw [Infra.toIndexInfoLoop]
    split
    · obtain ⟨is, i, rfl⟩ : ∃ is i, infos = is ++ [i] :=
        ⟨infos.dropLast, infos.getLast h, (List.dropLast_append_getLast h).symm⟩
      rw [Infra.appendLast_concat]
      exact loop_some rows _ _ _ (by simp)
    · exact loop_some rows _ _ _ (by simp)

/-- **C73.** The MySQL suggester crashes only on a text without any statement, such as an empty one or a
comment (given that the catalogue names the table or the index of each row). -/
theorem C73_mysql_crash_iff {T E : Type} (v : MyEnv T E) (query : Str)
    (hrow : ∀ tables rows, v.select tables = .ok rows → ∀ r ∈ rows, r.table ≠ [] ∨ r.index ≠ []) :
    (∃ x, mysqlSuggest v query = .error (.fail x)) ↔ v.parse query = .ok [] := by
  constructor
  · rintro ⟨x, h⟩
    simp only [mysqlSuggest, mysqlParse] at h
    cases hp : v.parse query with
    | error e => simp [hp] at h
    | ok l =>
      cases l with
      | nil => rfl
      | cons stmt rest =>
        simp only [hp] at h
        have hrem : ∀ its, removeExisting v.fold (mysqlIndexes (L := ListErr MyScope.Err E) v.select) its ≠
            .error (.fail x) := by
          intro its hc
          simp only [removeExisting] at hc
          split at hc
          · next e he =>
            simp only [Except.error.injEq] at hc
            subst hc
            obtain ⟨tables, -, ht⟩ := (Remover.C11_error _ _ _ _ _).mp he
            simp only [mysqlIndexes] at ht
            split at ht
            · cases ht
            · split at ht
              · cases ht
              · next rows hs =>
                split at ht
                · next hn =>
                  cases rows with
                  | nil => cases hn
                  | cons r rows =>
                    rw [Infra.toIndexInfo, Infra.toIndexInfoLoop, if_neg] at hn
                    · obtain ⟨o, ho⟩ := loop_some rows ([] ++ [⟨r.table, [r.column]⟩]) r.table r.index (by simp)
                      rw [ho] at hn
                      cases hn
                    · rintro ⟨e1, e2⟩
                      rcases hrow _ _ hs r (by simp) with h | h
                      · exact h e1.symm
                      · exact h e2.symm
                · cases ht
          · cases hc
        obtain ⟨r, hr, hne⟩ := MyScope.C72_returns v.orders v.norm v.cols v.f stmt
        rw [hr] at h
        match r with
        | .ok its => exact absurd h (hrem its)
        | .error (.query []) => exact absurd rfl (hne _ rfl)
        | .error (.query (e :: es)) => cases h
        | .error (.schemas e) => cases h
        | .error (.build e) => cases h
  · intro h
    exact ⟨.panic, by simp only [mysqlSuggest, mysqlParse, h]⟩

/-! ## C73: PostgreSQL -/

/-- a failure that is the query's fault has a message -/
theorem pg_list_errors {T E : Type} {o : PgScope.Orders} {norm : Str → Str} {fuel : Nat}
    {cols : List Str → Except E (List T)} {f : T → Str × Str × Bool} {stmt : PgScope.Stmt}
    {es : List PgScope.Err}
    (h : PgScope.listPossibleIndexes o norm fuel cols f stmt = .ok (.error (.query es))) : es ≠ [] := by
  simp only [PgScope.listPossibleIndexes] at h
  split at h
  · cases h
  · next hn => cases h; exact PgScope.names_errors hn
  · split at h
    · cases h
    · cases h
    · split at h
      · cases h
      · next hn => cases h; exact PgScope.scopes_errors hn
      · split at h <;> cases h

/-- what a success of the PostgreSQL suggester goes through -/
theorem pgSuggest_ok {T E : Type} {v : PgEnv T E} {query : Str} {out : List IndexTarget}
    (h : pgSuggest v query = .ok out) :
    ∃ stmt its, v.parse query = .ok [stmt] ∧
      PgScope.listPossibleIndexes v.orders v.norm v.fuel v.cols v.f stmt = .ok (.ok its) ∧
      removeExisting v.fold (pgIndexes (L := ListErr PgScope.Err E) v.strict v.select) its = .ok out := by
  simp only [pgSuggest, pgParse] at h
  match hp : v.parse query with
  | .error e => simp [hp] at h
  | .ok [] => simp [hp] at h
  | .ok (_ :: _ :: _) => simp [hp] at h
  | .ok [stmt] =>
    simp only [hp] at h
    match hr : PgScope.listPossibleIndexes v.orders v.norm v.fuel v.cols v.f stmt with
    | .error x => simp [hr] at h
    | .ok (.ok its) => exact ⟨stmt, its, rfl, hr, by simpa only [hr] using h⟩
    | .ok (.error (.query [])) => exact absurd rfl (pg_list_errors hr)
    | .ok (.error (.query (e :: es))) => simp [hr] at h
    | .ok (.error (.schemas e)) => simp [hr] at h
    | .ok (.error (.build e)) => simp [hr] at h

/-- **C73.** For a plain query the PostgreSQL suggester suggests only indexes on tables and columns that the
query uses and that the catalogue does not show already. -/
theorem C73_pg_sound {T E : Type} (v : PgEnv T E) (ho : v.orders.Ok) (query : Str) (s : PgScope.Select)
    (hp : v.parse query = .ok [.select s]) (hpl : PgScope.Spec.Plain s) (hf : PgScope.Spec.Fresh s)
    (hr : PgScope.Spec.NoRemoteSubquery s) (hn : sizeOf s ≤ v.fuel)
    (out : List IndexTarget) (h : pgSuggest v query = .ok out) :
    ∃ names rows tables irows, v.cols names = .ok rows ∧ v.select tables = .ok irows ∧
      (∀ n, n ∈ names ↔ ∃ table, PgScope.Spec.ReadsTable v.norm s table ∧ n = v.norm table) ∧
      ∀ t ∈ out, t.tableName ∈ names ∧ t.columns ≠ [] ∧ (t.columns.map (·.name)).Nodup ∧
        (∀ c ∈ t.columns, HasColumn v.f rows t.tableName c.name ∧
          ∃ x, PgScope.Spec.Below (.s s) (.s x) ∧ ∃ p ∈ PgScope.Spec.places v.norm x,
            ∃ a, PgScope.Spec.Mentions p.2.2 (.column a c.name)) ∧
        t.tableName ∈ tables ∧ ¬PgHas v.fold irows t.tableName (t.columns.map (·.name)) := by
  obtain ⟨stmt, its, h1, h2, h3⟩ := pgSuggest_ok h
  rw [hp] at h1
  simp only [Except.ok.injEq, List.cons.injEq, and_true] at h1
  subst h1
  obtain ⟨names, rows, h4, h5, h6⟩ :=
    PgScope.C68_suggestions_sound v.orders ho v.norm v.cols v.f s hpl hf hr v.fuel hn its h2
  obtain ⟨tables, existing, h7, h8, h9, -⟩ := removeExisting_ok h3
  obtain ⟨irows, h10, h11⟩ := pgIndexes_ok h7
  refine ⟨names, rows, tables, irows, h4, h10, h5, fun t ht => ?_⟩
  obtain ⟨ht1, ht2⟩ := (h9 t).mp ht
  obtain ⟨a1, a2, a3, a4⟩ := h6 t ht1
  exact ⟨a1, a2, a3, a4, (h8 _).mpr ⟨t, ht1, rfl⟩, fun hm => ht2 ((h11 _ _).mpr hm)⟩

/-- **C73.** For a plain query the PostgreSQL suggester holds nothing useful back: any columns of one table
used in conditions, at any depth, also from a subquery into the query around it, in any order, are suggested as an
index unless they all belong to the
primary key or the catalogue shows such an index already. -/
theorem C73_pg_complete {T E : Type} (v : PgEnv T E) (ho : v.orders.Ok) (query : Str) (s : PgScope.Select)
    (hp : v.parse query = .ok [.select s]) (hpl : PgScope.Spec.Plain s) (hf : PgScope.Spec.Fresh s)
    (hr : PgScope.Spec.NoRemoteSubquery s) (hs : PgScope.Spec.SingleFrom s)
    (hname : PgScope.Spec.OrdinaryNames v.norm s) (hn : sizeOf s ≤ v.fuel)
    (out : List IndexTarget) (h : pgSuggest v query = .ok out) :
    ∃ names rows tables irows, v.cols names = .ok rows ∧ v.select tables = .ok irows ∧
      (∀ n, n ∈ names ↔ ∃ table, PgScope.Spec.ReadsTable v.norm s table ∧ n = v.norm table) ∧
      (PgScope.OrdinaryRows v.f rows → ∀ t cs, v.norm t = t → cs ≠ [] → cs.Nodup →
        (∀ n ∈ cs, PgScope.Spec.UsesColumn v.norm (HasColumn v.f rows) s t n .condition ∨
          PgScope.Spec.UsesAround v.norm (HasColumn v.f rows) s t n .condition) →
        (∃ n ∈ cs, ¬InPrimaryKey v.f rows t n) →
        newIndexTarget t cs ∈ out ∨ (t ∈ tables ∧ PgHas v.fold irows t cs)) := by
  obtain ⟨stmt, its, h1, h2, h3⟩ := pgSuggest_ok h
  rw [hp] at h1
  simp only [Except.ok.injEq, List.cons.injEq, and_true] at h1
  subst h1
  obtain ⟨names, rows, h4, h5, h6⟩ :=
    PgScope.C68_around_conditions_suggested v.orders ho v.norm v.cols v.f s hpl hf hr hs hname v.fuel hn its h2
  obtain ⟨tables, existing, h7, h8, h9, -⟩ := removeExisting_ok h3
  obtain ⟨irows, h10, h11⟩ := pgIndexes_ok h7
  refine ⟨names, rows, tables, irows, h4, h10, h5, fun hro t cs hnt hne hnd hu hk => ?_⟩
  have hin := h6 hro t cs hnt hne hnd hu hk
  by_cases hc : Remover.Covered v.fold existing (newIndexTarget t cs)
  · right
    have := (h11 _ _).mp hc
    rw [show (newIndexTarget t cs).columns.map (·.name) = cs by
      simp [newIndexTarget, Function.comp_def]] at this
    exact ⟨(h8 _).mpr ⟨_, hin, rfl⟩, this⟩
  · exact .inl ((h9 _).mpr ⟨hin, hc⟩)

/-- **C73.** The PostgreSQL suggester refuses a text of several statements, before reading the catalogue. -/
theorem C73_pg_multiple_refused {T E : Type} (v : PgEnv T E) (query : Str) (a b : PgScope.Stmt)
    (rest : List PgScope.Stmt) (h : v.parse query = .ok (a :: b :: rest)) :
    pgSuggest v query = .error .multiple := by
  simp only [pgSuggest, pgParse, h]

/-- **C73**, without restriction: it fails.  A text without any statement crashes the PostgreSQL suggester. -/
theorem C73_pg_empty_crashes {T E : Type} (v : PgEnv T E) (query : Str) (h : v.parse query = .ok []) :
    pgSuggest v query = .error (.fail .panic) := by
  simp only [pgSuggest, pgParse, h]

/-- **C73.** For a plain query without a comma in FROM and without subqueries in the places the walker skips,
the PostgreSQL suggester neither crashes nor runs forever.  (Missing: other queries, see C69.) -/
theorem C73_pg_returns_partial {T E : Type} (v : PgEnv T E) (query : Str) (s : PgScope.Select)
    (hp : v.parse query = .ok [.select s]) (hpl : PgScope.Spec.Plain s) (hf : PgScope.Spec.Fresh s)
    (hr : PgScope.Spec.NoRemoteSubquery s) (hs : PgScope.Spec.SingleFrom s) (hn : sizeOf s ≤ v.fuel)
    (x : Fail) : pgSuggest v query ≠ .error (.fail x) := by
  intro h
  simp only [pgSuggest, pgParse, hp] at h
  have hrem : ∀ its, removeExisting v.fold (pgIndexes (L := ListErr PgScope.Err E) v.strict v.select) its ≠
      .error (.fail x) := by
    intro its hc
    simp only [removeExisting] at hc
    split at hc
    · next e he =>
      simp only [Except.error.injEq] at hc
      subst hc
      obtain ⟨tables, -, ht⟩ := (Remover.C11_error _ _ _ _ _).mp he
      simp only [pgIndexes] at ht
      split at ht
      · cases ht
      · split at ht <;> cases ht
    · cases hc
  obtain ⟨r, hr', hne⟩ := PgScope.C69_returns_partial v.orders v.norm v.cols v.f s hpl hf hr hs v.fuel hn
  rw [hr'] at h
  match r with
  | .ok its => exact absurd h (hrem its)
  | .error (.query []) => exact absurd rfl (hne _ rfl)
  | .error (.query (e :: es)) => cases h
  | .error (.schemas e) => cases h
  | .error (.build e) => cases h

/-! ## C74 -/

/-- A SQL command without `-i` creates indexes only for safe suggestions, and drops what it created. -/
theorem examined_suggested {T : Type} (pre : Str) (w : World T) (o : Options) (hi : o.indexTargets = [])
    (before after : List Examine.Event) (n : Str) (t : IndexTarget) (r : Except Examine.Err Int)
    (h : examEvents (suggestSql pre w o).2 = before ++ ⟨.create n t, r⟩ :: after) :
    o.runsExamination = true ∧ ∃ its, w.suggest o.query = .ok its ∧ t ∈ its ∧ t.isSafe = true ∧ Ident n ∧
      (∀ k, r = .ok k → ∃ x d rest, after = ⟨.execute, x⟩ :: ⟨.drop n t, d⟩ :: rest) := by
  have hx : o.runsExamination = true := by
    rcases Bool.eq_false_or_eq_true o.runsExamination with h1 | h1
    · exact h1
    · have := (C42_read_only (Plan := Unit) pre w { w with
        explainGql := fun _ => .ok [], build := fun _ => .error .emptyIn, parseJson := fun _ => .ok () }
        o [] h1).1 ⟨.create n t, r⟩
      have hm : (⟨.create n t, r⟩ : Examine.Event) ∈ examEvents (suggestSql pre w o).2 := by rw [h]; simp
      simp only [examEvents, List.mem_filterMap] at hm
      obtain ⟨e, he, hee⟩ := hm
      cases e with
      | exam e' => simp only [Option.some.injEq] at hee; subst hee; exact absurd he this
      | _ => cases hee
  refine ⟨hx, ?_⟩
  rcases (C42_examined (Plan := Unit) pre w { w with
      explainGql := fun _ => .ok [], build := fun _ => .error .emptyIn, parseJson := fun _ => .ok () }
      o []).1 with h1 | ⟨given, its, ts, h1, h2, h3, h4, h5⟩
  · rw [h1] at h; simp at h
  · have hg : given = [] := by
      rw [hi] at h1
      cases h1
      rfl
    have hts := h3.2 hg
    have he : (⟨.create n t, r⟩ : Examine.Event) ∈ (Examine.run w.exam w.now ts).2 := by
      rw [← h5, h]; simp
    obtain ⟨ht, -, hid, -⟩ := C10_name_short_and_safe _ _ _ _ he n t (.inl rfl)
    refine ⟨its, h2, ?_, h4 t ht, hid, ?_⟩
    · rw [hts] at ht
      exact (List.mem_filter.mp ht).1
    · rintro k rfl
      exact C07_created_is_dropped w.exam w.now ts before after n t k (by rw [← h5, h])

/-- **C74.** The MySQL command with `--with-examine` and no `-i` changes only what the query is about: every
index it asks the database to create is, in the text sent, on a table in FROM of the query and on columns
of this table that the query mentions; the catalogue does not show such an index; and if the database
creates it, the command drops it again from the same table after one execution of the query. -/
theorem C74_mysql_examined {T T' E : Type} (v : MyEnv T E) (ho : v.orders.Ok)
    (hrow : ∀ names rows, v.cols names = .ok rows → ∀ x ∈ rows, (v.f x).1 ≠ [])
    (hidx : ∀ tables irows, v.select tables = .ok irows → MysqlRowsOk irows)
    (w : World T') (o : Options) (hi : o.indexTargets = [])
    (hw : ∀ its, w.suggest o.query = .ok its → mysqlSuggest v o.query = .ok its)
    (before after : List Examine.Event) (n : Str) (t : IndexTarget) (r : Except Examine.Err Int)
    (h : examEvents (suggestSql mysqlPre w o).2 = before ++ ⟨.create n t, r⟩ :: after) :
    o.runsExamination = true ∧
    (∃ s rest names rows tables irows, v.parse o.query = .ok (.select s :: rest) ∧
      v.cols names = .ok rows ∧ v.select tables = .ok irows ∧
      (∃ j schema name as, MyScope.Spec.fromOf s = some j ∧
        MyScope.Spec.FromItem j (.source (.table schema name) as) ∧ t.tableName = v.norm name) ∧
      (∀ c ∈ t.columns, HasColumn v.f rows t.tableName c.name ∧
        ∃ as ty e q m, (as, ty, .expr e) ∈ MyScope.Spec.places v.norm s ∧
          MyScope.Spec.Mentions e q m ∧ c.name = v.norm m) ∧
      t.tableName ∈ tables ∧ ¬MysqlHas v.fold irows t.tableName (t.columns.map (·.name))) ∧
    lex '`' (mysqlCreate n t) = some
      ([.word "ALTER".toList, .word "TABLE".toList, .quoted t.tableName, .word "ADD".toList,
        .word "INDEX".toList, .quoted n, .sym '('] ++
        columnToks (t.columns.map (·.name)) ++ [.sym ')']) ∧
    (∀ k, r = .ok k → ∃ x d rest, after = ⟨.execute, x⟩ :: ⟨.drop n t, d⟩ :: rest ∧
      lex '`' (mysqlDrop n t) = some
        [.word "ALTER".toList, .word "TABLE".toList, .quoted t.tableName, .word "DROP".toList,
          .word "INDEX".toList, .quoted n]) := by
  obtain ⟨hx, its, h1, h2, h3, h4, h5⟩ := examined_suggested mysqlPre w o hi before after n t r h
  obtain ⟨s, rest, names, rows, tables, irows, a1, a2, a3, a4⟩ := C73_mysql_sound v ho o.query its (hw its h1)
  obtain ⟨b1, b2, -, b4, b5, b6⟩ := a4 (hrow _ _ a2) t h2
  refine ⟨hx, ⟨s, rest, names, rows, tables, irows, a1, a2, a3, b1, b4, b5, b6 (hidx _ _ a3)⟩,
    C06_mysql_create n t h3 b2 h4, fun k hk => ?_⟩
  obtain ⟨x, d, rest', e⟩ := h5 k hk
  exact ⟨x, d, rest', e, C06_mysql_drop n t h3 h4⟩

/-- **C74.** The PostgreSQL command with `--with-examine` and no `-i`, for a plain query: every index it asks
the database to create is, in the text sent, on a table that the query reads and on columns of this table
that the query mentions; the catalogue does not show such an index; and if the database creates it, the
command drops it again after one execution of the query. -/
theorem C74_pg_examined {T T' E : Type} (v : PgEnv T E) (ho : v.orders.Ok)
    (w : World T') (o : Options) (hi : o.indexTargets = [])
    (hw : ∀ its, w.suggest o.query = .ok its → pgSuggest v o.query = .ok its) (s : PgScope.Select)
    (hp : v.parse o.query = .ok [.select s]) (hpl : PgScope.Spec.Plain s) (hf : PgScope.Spec.Fresh s)
    (hr : PgScope.Spec.NoRemoteSubquery s) (hn : sizeOf s ≤ v.fuel)
    (before after : List Examine.Event) (n : Str) (t : IndexTarget) (r : Except Examine.Err Int)
    (h : examEvents (suggestSql pgPre w o).2 = before ++ ⟨.create n t, r⟩ :: after) :
    o.runsExamination = true ∧
    (∃ names rows tables irows, v.cols names = .ok rows ∧ v.select tables = .ok irows ∧
      (∃ table, PgScope.Spec.ReadsTable v.norm s table ∧ t.tableName = v.norm table) ∧
      (∀ c ∈ t.columns, HasColumn v.f rows t.tableName c.name ∧
        ∃ x, PgScope.Spec.Below (.s s) (.s x) ∧ ∃ p ∈ PgScope.Spec.places v.norm x,
          ∃ a, PgScope.Spec.Mentions p.2.2 (.column a c.name)) ∧
      t.tableName ∈ tables ∧ ¬PgHas v.fold irows t.tableName (t.columns.map (·.name))) ∧
    lex '"' (postgresCreate n t) = some
      ([.word "CREATE".toList, .word "INDEX".toList, .quoted n, .word "ON".toList,
        .quoted t.tableName, .sym '('] ++
        columnToks (t.columns.map (·.name)) ++ [.sym ')']) ∧
    (∀ k, r = .ok k → ∃ x d rest, after = ⟨.execute, x⟩ :: ⟨.drop n t, d⟩ :: rest ∧
      lex '"' (postgresDrop n t) = some [.word "DROP".toList, .word "INDEX".toList, .quoted n]) := by
  obtain ⟨hx, its, h1, h2, h3, h4, h5⟩ := examined_suggested pgPre w o hi before after n t r h
  obtain ⟨names, rows, tables, irows, a1, a2, a3, a4⟩ :=
    C73_pg_sound v ho o.query s hp hpl hf hr hn its (hw its h1)
  obtain ⟨b1, b2, -, b4, b5, b6⟩ := a4 t h2
  refine ⟨hx, ⟨names, rows, tables, irows, a1, a2, (a3 _).mp b1, b4, b5, b6⟩,
    C06_postgres_create n t h3 b2 h4, fun k hk => ?_⟩
  obtain ⟨x, d, rest', e⟩ := h5 k hk
  exact ⟨x, d, rest', e, C06_postgres_drop n t h4⟩

/-- **C74.** The same for the Hasura command, about the SQL statement that Hasura gives for the document. -/
theorem C74_hasura_examined {T T' Plan E : Type} (v : PgEnv T E) (ho : v.orders.Ok)
    (w : HasuraWorld T' Plan) (o : Options) (jv : Str) (hi : o.indexTargets = [])
    (hw : ∀ sql its, w.suggest sql = .ok its → pgSuggest v sql = .ok its)
    (hq : ∀ sql plan, w.explainGql o.query = .ok [(sql, plan)] → ∃ s, v.parse sql = .ok [.select s] ∧
      PgScope.Spec.Plain s ∧ PgScope.Spec.Fresh s ∧ PgScope.Spec.NoRemoteSubquery s ∧ sizeOf s ≤ v.fuel)
    (before after : List Examine.Event) (n : Str) (t : IndexTarget) (r : Except Examine.Err Int)
    (h : examEvents (suggestHasura w o jv).2 = before ++ ⟨.create n t, r⟩ :: after) :
    o.runsExamination = true ∧
    (∃ sql plan s names rows tables irows, w.explainGql o.query = .ok [(sql, plan)] ∧
      v.parse sql = .ok [.select s] ∧ v.cols names = .ok rows ∧ v.select tables = .ok irows ∧
      (∃ table, PgScope.Spec.ReadsTable v.norm s table ∧ t.tableName = v.norm table) ∧
      (∀ c ∈ t.columns, HasColumn v.f rows t.tableName c.name ∧
        ∃ x, PgScope.Spec.Below (.s s) (.s x) ∧ ∃ p ∈ PgScope.Spec.places v.norm x,
          ∃ a, PgScope.Spec.Mentions p.2.2 (.column a c.name)) ∧
      t.tableName ∈ tables ∧ ¬PgHas v.fold irows t.tableName (t.columns.map (·.name))) ∧
    lex '"' (postgresCreate n t) = some
      ([.word "CREATE".toList, .word "INDEX".toList, .quoted n, .word "ON".toList,
        .quoted t.tableName, .sym '('] ++
        columnToks (t.columns.map (·.name)) ++ [.sym ')']) ∧
    (∀ k, r = .ok k → ∃ x d rest, after = ⟨.execute, x⟩ :: ⟨.drop n t, d⟩ :: rest ∧
      lex '"' (postgresDrop n t) = some [.word "DROP".toList, .word "INDEX".toList, .quoted n]) := by
  rcases suggestHasura_spec w o jv with ⟨_, _, h1, h2, _⟩ | ⟨sql, plan, tree, its, given, h1, _, h2, hg, h3⟩
  · rw [h1] at h
    simp only at h
    rw [h2] at h
    simp at h
  · have hgiven : given = [] := by
      rw [hi] at hg
      cases hg
      rfl
    obtain ⟨evs, tail, e1, e2, e3, e4⟩ := finish_spec w.toWorld o
      [⟨false, "json-variables".toList, jv⟩] given sql tree its [.explain o.query, .suggest sql]
    rw [h3, e1, exam_of_log _ _ _ _ _ e2] at h
    have hx : o.runsExamination = true := by
      rcases Bool.eq_false_or_eq_true o.runsExamination with hx | hx
      · exact hx
      · rw [e3 hx] at h; simp at h
    obtain ⟨ts, hts, rfl⟩ := e4 hx
    have he : (⟨.create n t, r⟩ : Examine.Event) ∈ (Examine.run w.exam w.now ts).2 := by rw [h]; simp
    obtain ⟨ht, -, hid, -⟩ := C10_name_short_and_safe _ _ _ _ he n t (.inl rfl)
    rw [hts.2 hgiven, List.mem_filter] at ht
    obtain ⟨s, a0, hpl, hf, hr, hn⟩ := hq sql plan h1
    obtain ⟨names, rows, tables, irows, a1, a2, a3, a4⟩ :=
      C73_pg_sound v ho sql s a0 hpl hf hr hn its (hw sql its h2)
    obtain ⟨b1, b2, -, b4, b5, b6⟩ := a4 t ht.1
    refine ⟨hx, ⟨sql, plan, s, names, rows, tables, irows, h1, a0, a1, a2, (a3 _).mp b1, b4, b5, b6⟩,
      C06_postgres_create n t ht.2 b2 hid, ?_⟩
    rintro k rfl
    obtain ⟨x, d, rest, e⟩ := C07_created_is_dropped w.exam w.now ts before after n t k h
    exact ⟨x, d, rest, e, C06_postgres_drop n t hid⟩

/-! ## C75: PostgreSQL's spelling of index columns -/

/-- What `PG_GET_INDEXDEF(index, k, TRUE)` (`/repo/infra/postgres/index_info.go:14`,
`/repo/infra/hasura/index_info.go:15`) gives for an index on a plain column: PostgreSQL's
`quote_identifier`.  A name of lower-case letters, digits and underscores that does not begin with a
digit and is no keyword stays as it is; any other is put in quotes, its quotes doubled.  (From
PostgreSQL's documentation and source, not from the repository.) -/
def quoteIdent (keyword : Str → Bool) (name : Str) : Str :=
  let low (c : Char) : Bool := ('a' ≤ c && c ≤ 'z') || c = '_'
  if (name.head?.any low) && name.all (fun c => low c || ('0' ≤ c && c ≤ '9')) && !keyword name then name
  else '"' :: name.flatMap (fun c => if c = '"' then ['"', '"'] else [c]) ++ ['"']

/-- **C75.** The names that PostgreSQL prints without quotes: lower-case letters, digits and underscores, not
beginning with a digit, no keyword. -/
theorem C75_unquoted_iff (keyword : Str → Bool) (name : Str) : quoteIdent keyword name = name ↔
    (∃ c r, name = c :: r ∧ ¬('0' ≤ c ∧ c ≤ '9')) ∧
    (∀ c ∈ name, ('a' ≤ c ∧ c ≤ 'z') ∨ c = '_' ∨ ('0' ≤ c ∧ c ≤ '9')) ∧ keyword name = false := by
  have hlow : ∀ c : Char, (('a' ≤ c ∧ c ≤ 'z') ∨ c = '_') → ¬('0' ≤ c ∧ c ≤ '9') := by
    intro c h1 h2
    simp only [Char.le_def, UInt32.le_iff_toNat_le] at h1 h2
    rcases h1 with h1 | rfl
    · have e1 : 'a'.val.toNat = 97 := rfl
      have e2 : '9'.val.toNat = 57 := rfl
      omega
    · exact absurd h2 (by decide)
  unfold quoteIdent
  simp only
  split
  next h =>
    simp only [Bool.and_eq_true, List.all_eq_true, Bool.or_eq_true, decide_eq_true_eq, Bool.not_eq_true',
      Option.any_eq_true] at h
    obtain ⟨⟨⟨c, hc, h1⟩, h2⟩, h3⟩ := h
    refine ⟨fun _ => ⟨?_, fun x hx => ?_, h3⟩, fun _ => rfl⟩
    · cases name with
      | nil => cases hc
      | cons a r =>
        cases hc
        exact ⟨c, r, rfl, hlow c h1⟩
    · rcases h2 x hx with (h | h) | h
      · exact .inl h
      · exact .inr (.inl h)
      · exact .inr (.inr h)
  next h =>
    constructor
    · intro e
      have hl := congrArg List.length e
      have : name.length ≤ (name.flatMap fun c => if c = '"' then ['"', '"'] else [c]).length := by
        clear * -
        induction name with
        | nil => exact Nat.le_refl _
        | cons a r ih =>
          rw [List.flatMap_cons, List.length_append, List.length_cons]
          split <;> simp only [List.length_cons, List.length_nil] <;> omega
      simp only [List.cons_append, List.length_cons, List.length_append, List.length_nil] at hl
      omega
    · rintro ⟨⟨c, r, rfl, h1⟩, h2, h3⟩
      refine absurd ?_ h
      simp only [Bool.and_eq_true, List.all_eq_true, Bool.or_eq_true, decide_eq_true_eq, Bool.not_eq_true',
        Option.any_eq_true]
      refine ⟨⟨⟨c, rfl, ?_⟩, fun x hx => ?_⟩, h3⟩
      · rcases h2 c List.mem_cons_self with h | h | h
        · exact .inl h
        · exact .inr h
        · exact absurd h h1
      · rcases h2 x hx with h | h | h
        · exact .inl (.inl h)
        · exact .inl (.inr h)
        · exact .inr h

/-- the name `user_2` is printed as it is -/
example : quoteIdent (fun n => n = ['u', 's', 'e', 'r']) ['u', 's', 'e', 'r', '_', '2'] = ['u', 's', 'e', 'r', '_', '2'] :=
  (C75_unquoted_iff _ _).mpr ⟨⟨_, _, rfl, by decide⟩, by decide, by decide⟩

/-- the rows of the index query when the database has the indexes `db` -/
def shownIndexes (keyword : Str → Bool) (db : List (Str × List Str)) : List (Str × List Str) :=
  db.map fun i => (i.1, i.2.map (quoteIdent keyword))

/-- **C75.** An index that exists is not suggested again, if its column names need no quotes (and the index
query answers with the indexes of the tables asked for, among others).  (Missing: other names; see
`C75_quoted_suggested_again`.) -/
theorem C75_existing_not_suggested_partial {T E : Type} (v : PgEnv T E) (keyword : Str → Bool)
    (db : List (Str × List Str))
    (hdb : ∀ tables irows, v.select tables = .ok irows →
      ∀ r ∈ shownIndexes keyword db, r.1 ∈ tables → r ∈ irows)
    (query : Str) (out : List IndexTarget) (h : pgSuggest v query = .ok out)
    (table : Str) (cs : List Str) (hi : (table, cs) ∈ db) (hq : ∀ c ∈ cs, quoteIdent keyword c = c) :
    newIndexTarget table cs ∉ out := by
  intro ht
  obtain ⟨stmt, its, -, -, h3⟩ := pgSuggest_ok h
  obtain ⟨tables, existing, h7, h8, h9, -⟩ := removeExisting_ok h3
  obtain ⟨irows, h10, h11⟩ := pgIndexes_ok h7
  obtain ⟨h12, h13⟩ := (h9 _).mp ht
  refine h13 ((h11 _ _).mpr ⟨(table, cs), hdb _ _ h10 _ ?_ ((h8 _).mpr ⟨_, h12, rfl⟩), rfl, ?_⟩)
  · exact List.mem_map.mpr ⟨_, hi, by rw [List.map_congr_left hq]; simp⟩
  · simp [SameNames, newIndexTarget, Function.comp_def]

/-- **C75** for MySQL, whose catalogue gives column names as they are: an index that exists is not
suggested again, under any name. -/
theorem C75_mysql_existing_not_suggested {T E : Type} (v : MyEnv T E)
    (hidx : ∀ tables irows, v.select tables = .ok irows → MysqlRowsOk irows)
    (db : List (Str × Str × List Str)) (hne : ∀ i ∈ db, i.2.2 ≠ [])
    (hdb : ∀ tables irows, v.select tables = .ok irows → ∀ i ∈ db, i.1 ∈ tables →
      Infra.colsOf irows (i.1, i.2.1) = i.2.2)
    (query : Str) (out : List IndexTarget) (h : mysqlSuggest v query = .ok out)
    (table name : Str) (cs : List Str) (hi : (table, name, cs) ∈ db) :
    newIndexTarget table cs ∉ out := by
  intro ht
  obtain ⟨stmt, rest, its, -, -, h3⟩ := mysqlSuggest_ok h
  obtain ⟨tables, existing, h7, h8, h9, -⟩ := removeExisting_ok h3
  obtain ⟨irows, h10, h11⟩ := mysqlIndexes_ok h7
  obtain ⟨h12, h13⟩ := (h9 _).mp ht
  have hc := hdb _ _ h10 _ hi ((h8 _).mpr ⟨_, h12, rfl⟩)
  refine h13 ((h11 (hidx _ _ h10) _ _).mpr ⟨name, ?_, ?_⟩)
  · have := hne _ hi
    simp only at this hc
    rw [← hc, Infra.colsOf, ne_eq, List.map_eq_nil_iff] at this
    obtain ⟨r, hr⟩ := List.exists_mem_of_ne_nil _ this
    rw [List.mem_filter, decide_eq_true_eq] at hr
    simp only [Infra.FlatRow.key, Prod.mk.injEq] at hr
    exact ⟨r, hr.1, hr.2⟩
  · simp only at hc
    simp [SameNames, newIndexTarget, Function.comp_def, hc]

/-! ## Cases -/

/-- an index on `tasks (Status)`, and one of two columns -/
def exIndexRows : List Infra.FlatRow :=
  [⟨"tasks".toList, "i1".toList, "Status".toList⟩, ⟨"users".toList, "PRIMARY".toList, "id".toList⟩,
   ⟨"users".toList, "i2".toList, "name".toList⟩, ⟨"users".toList, "i2".toList, "id".toList⟩]

/-- MySQL, for the text of `MyScope.exQuery` followed by another statement; the empty text has none -/
def exMyEnv : MyEnv (Str × Str × Bool) Unit where
  parse q := if q = [] then .ok [] else .ok [.select MyScope.exQuery, .other]
  orders := MyScope.idOrders
  norm := PgScope.lower
  cols := MyScope.exCols
  f := id
  select _ := .ok exIndexRows
  fold := Char.toLower

/-- the result of a success -/
def okOf {X : Type} : Except X (List IndexTarget) → Option (List IndexTarget)
  | .ok l => some l
  | .error _ => none

theorem okOf_some {X : Type} {r : Except X (List IndexTarget)} {l : List IndexTarget}
    (h : okOf r = some l) : r = .ok l := by
  cases r with
  | ok a => simp only [okOf, Option.some.injEq] at h; rw [h]
  | error e => cases h

/-- all of `MyScope.exOut` but the index on `status`; the one on `(id, name)` has the other order -/
def exMyOut : List IndexTarget :=
  [newIndexTarget "tasks".toList ["user_id".toList],
   newIndexTarget "tasks".toList ["status".toList, "user_id".toList],
   newIndexTarget "tasks".toList ["user_id".toList, "status".toList],
   newIndexTarget "users".toList ["id".toList, "name".toList]]

theorem exMyEnv_out : mysqlSuggest exMyEnv "q".toList = .ok exMyOut := okOf_some (by decide +kernel)

theorem exIndexRows_ok : MysqlRowsOk exIndexRows := by
  refine ⟨?_, by decide +kernel⟩
  intro a r b s c h hk m hm
  have key : ∀ i j k : Fin 4, i < j → j < k → (exIndexRows[i]).key = (exIndexRows[k]).key →
    (exIndexRows[j]).key = (exIndexRows[i]).key := by decide +kernel
  obtain ⟨b1, b2, rfl⟩ := List.append_of_mem hm
  have hl : exIndexRows.length = 4 := rfl
  have hlen := congrArg List.length h
  simp only [List.length_append, List.length_cons] at hlen
  rw [hl] at hlen
  have g1 : exIndexRows[a.length]? = some r := by rw [h]; simp
  have g2 : exIndexRows[a.length + 1 + b1.length]? = some m := by
    rw [h, show a ++ r :: (b1 ++ m :: b2 ++ s :: c) = (a ++ r :: b1) ++ m :: (b2 ++ s :: c) by simp,
      show a.length + 1 + b1.length = (a ++ r :: b1).length by simp; omega]
    simp
  have g3 : exIndexRows[a.length + 1 + b1.length + 1 + b2.length]? = some s := by
    rw [h, show a ++ r :: (b1 ++ m :: b2 ++ s :: c) = (a ++ r :: b1 ++ m :: b2) ++ s :: c by simp,
      show a.length + 1 + b1.length + 1 + b2.length = (a ++ r :: b1 ++ m :: b2).length by simp; omega]
    simp
  have := key ⟨a.length, by omega⟩ ⟨a.length + 1 + b1.length, by omega⟩
    ⟨a.length + 1 + b1.length + 1 + b2.length, by omega⟩ (by simp; omega) (by simp; omega)
  rw [List.getElem?_eq_some_iff] at g1 g2 g3
  obtain ⟨_, g1⟩ := g1
  obtain ⟨_, g2⟩ := g2
  obtain ⟨_, g3⟩ := g3
  simp only [Fin.getElem_fin, g1, g2, g3] at this
  exact this hk

example := C73_mysql_sound exMyEnv MyScope.idOrders_ok _ _ exMyEnv_out

/-- of the two indexes on conditions, one exists and the other is suggested -/
example : (newIndexTarget (PgScope.lower "tasks".toList) ["status".toList] ∉ exMyOut ∧
      MysqlHas Char.toLower exIndexRows "tasks".toList ["status".toList]) ∧
    newIndexTarget (PgScope.lower "tasks".toList) ["user_id".toList, "status".toList] ∈ exMyOut := by
  obtain ⟨names, rows, tables, irows, h1, h2, -, h3⟩ := C73_mysql_complete_partial exMyEnv MyScope.idOrders_ok _
    MyScope.exQuery [.other] rfl _ exMyEnv_out
  simp only [exMyEnv, MyScope.exCols, Except.ok.injEq] at h1 h2
  subst h1 h2
  refine ⟨⟨by decide +kernel, ⟨"i1".toList, by decide +kernel, by unfold SameNames; decide +kernel⟩⟩, ?_⟩
  rcases h3 exIndexRows_ok "tasks".toList ["user_id".toList, "status".toList] MyScope.exQuery_reads_tasks (by simp)
    (by decide +kernel) MyScope.exQuery_uses
    ⟨"status".toList, by simp, by unfold InPrimaryKey; decide +kernel⟩ with h | ⟨-, index, ⟨r, hr, h4, h5⟩, h6⟩
  · exact h
  · exfalso
    revert h6
    have : ∀ r ∈ exIndexRows, r.table = PgScope.lower "tasks".toList →
        ¬SameNames Char.toLower ["user_id".toList, "status".toList] (Infra.colsOf exIndexRows (r.table, r.index)) := by
      unfold SameNames; decide +kernel
    rw [← h5, ← h4]
    exact this r hr h4

/-- a UNION -/
example :=
  C73_mysql_refusal_shown { exMyEnv with parse := fun _ => .ok [.setOpr] } [] .setOpr [] rfl nofun

example : ∃ x, mysqlSuggest exMyEnv [] = .error (.fail x) :=
  (C73_mysql_crash_iff exMyEnv [] (fun _ rows h => by
    simp only [exMyEnv, Except.ok.injEq] at h
    subst h
    decide +kernel)).mpr rfl

/-- a world around it, in which everything succeeds -/
def exWorld : World Unit :=
  ⟨fun _ => .ok (), fun q => match mysqlSuggest exMyEnv q with | .ok l => .ok l | .error _ => .error .emptyIn,
    ⟨fun l _ => .ok l.length, fun _ => 0⟩, 7, fun _ _ => .ok ()⟩

/-- an examination of the suggestions -/
def exOptions : Options := ⟨true, [], "q".toList, []⟩

/-- the first index it creates: all hypotheses of `C74_mysql_examined` hold together -/
example : ∃ n x d rest, examEvents (suggestSql mysqlPre exWorld exOptions).2 =
    ⟨.execute, .ok 0⟩ :: ⟨.create n (newIndexTarget "tasks".toList ["user_id".toList]), .ok 1⟩ ::
      ⟨.execute, x⟩ :: ⟨.drop n (newIndexTarget "tasks".toList ["user_id".toList]), d⟩ :: rest := by
  have hs : exWorld.suggest exOptions.query = .ok exMyOut := by
    simp only [exWorld, exOptions, exMyEnv_out]
  obtain ⟨ts, h1, h2⟩ := C42_examines mysqlPre exWorld exOptions [] exMyOut () rfl rfl rfl hs
  have hts : ts = exMyOut := (h1.2 rfl).trans (by decide +kernel)
  subst hts
  have hev : examEvents (suggestSql mysqlPre exWorld exOptions).2 =
      [⟨.execute, .ok 0⟩] ++ ⟨.create (indexName (dec 7) (newIndexTarget "tasks".toList ["user_id".toList]) 0)
        (newIndexTarget "tasks".toList ["user_id".toList]), .ok 1⟩ ::
        ((Examine.run exWorld.exam exWorld.now exMyOut).2.drop 2) := by
    rw [h2]
    rfl
  obtain ⟨-, -, -, h3⟩ := C74_mysql_examined exMyEnv MyScope.idOrders_ok
    (by
      intro names rows h
      simp only [exMyEnv, MyScope.exCols, Except.ok.injEq] at h
      subst h
      decide +kernel)
    (by
      intro tables irows h
      simp only [exMyEnv, Except.ok.injEq] at h
      subst h
      exact exIndexRows_ok)
    exWorld exOptions rfl
    (by
      intro its h
      rw [hs] at h
      cases h
      exact exMyEnv_out) _ _ _ _ _ hev
  obtain ⟨x, d, rest, h4, -⟩ := h3 1 rfl
  exact ⟨_, x, d, rest, by rw [hev, h4]; rfl⟩

/-- PostgreSQL, for the text of `PgScope.exScopes` -/
def exPgEnv : PgEnv (Str × Str × Bool) Unit where
  parse q := if q = "2".toList then .ok [.other, .other] else .ok [.select PgScope.exScopes]
  orders := PgScope.idOrders
  norm := PgScope.lower
  fuel := 100000
  cols := PgScope.exCols
  f := id
  strict := true
  select _ := .ok [("posts".toList, ["kind".toList]), ("users".toList, ["id".toList])]
  fold := Char.toLower

theorem exPgEnv_out : pgSuggest exPgEnv "q".toList = .ok (PgScope.exOut.drop 1) := okOf_some (by decide +kernel)

example := C73_pg_sound exPgEnv PgScope.idOrders_ok "q".toList PgScope.exScopes rfl PgScope.exScopes_plain
  PgScope.exScopes_fresh PgScope.exScopes_noRemote PgScope.exScopes_size _ exPgEnv_out

example := C73_pg_complete exPgEnv PgScope.idOrders_ok "q".toList PgScope.exScopes rfl PgScope.exScopes_plain
  PgScope.exScopes_fresh PgScope.exScopes_noRemote PgScope.exScopes_single PgScope.exScopes_ordinary
  PgScope.exScopes_size _ exPgEnv_out

example : pgSuggest exPgEnv "2".toList = .error .multiple :=
  C73_pg_multiple_refused exPgEnv _ _ _ _ rfl

/-- a database with an index on `posts (kind)` -/
example : newIndexTarget "posts".toList ["kind".toList] ∉ PgScope.exOut.drop 1 :=
  C75_existing_not_suggested_partial exPgEnv (fun _ => false)
    [("posts".toList, ["kind".toList]), ("users".toList, ["id".toList])]
    (by
      intro tables irows h r hr _
      simp only [exPgEnv, Except.ok.injEq] at h
      subst h
      clear * - hr
      revert r
      decide +kernel)
    _ _ exPgEnv_out _ _ (by decide +kernel) (by decide +kernel)

/-- MySQL with the index `i1` on `tasks (Status)`: the hypotheses of `C75_mysql_existing_not_suggested` hold -/
example : newIndexTarget "tasks".toList ["Status".toList] ∉ exMyOut :=
  C75_mysql_existing_not_suggested exMyEnv
    (by
      intro tables irows h
      simp only [exMyEnv, Except.ok.injEq] at h
      subst h
      exact exIndexRows_ok)
    [("tasks".toList, "i1".toList, ["Status".toList]), ("users".toList, "i2".toList, ["name".toList, "id".toList])]
    (by decide +kernel)
    (by
      intro tables irows h i hi _
      simp only [exMyEnv, Except.ok.injEq] at h
      subst h
      clear * - hi
      revert i
      decide +kernel)
    _ _ exMyEnv_out _ "i1".toList _ (by decide +kernel)

/-- `SELECT id FROM users WHERE "createdAt" = 1` -/
def exCamel : PgScope.Select := .mk 1 none [] .none (.clause
  [.mk (.name ["id".toList] false) []] [.aliased (.tableName [] [] "users".toList) [] false]
  (some (.node true [.name ["createdAt".toList] false, .leaf true true])) [] none false [])

/-- a database in which the table `users` has an index on its column `createdAt` -/
def exCamelEnv : PgEnv (Str × Str × Bool) Unit := { exPgEnv with
  parse := fun _ => .ok [.select exCamel]
  cols := fun _ => .ok [("users".toList, "id".toList, true), ("users".toList, "createdAt".toList, false)]
  select := fun _ => .ok (shownIndexes (fun _ => false) [("users".toList, ["createdAt".toList])]) }

/-- **C75**, without the restriction: it fails.  The table `users` has an index on `createdAt`; PostgreSQL
shows the column in quotes, so the suggester does not recognise it and suggests the same index again. -/
theorem C75_quoted_suggested_again : ∃ out, pgSuggest exCamelEnv [] = .ok out ∧
    newIndexTarget "users".toList ["createdAt".toList] ∈ out :=
  ⟨_, okOf_some (l := [newIndexTarget "users".toList ["createdAt".toList],
    newIndexTarget "users".toList ["createdAt".toList, "id".toList]]) (by decide +kernel), by simp⟩

/-- `SELECT id FROM users WHERE "order" = 1` -/
def exOrder : PgScope.Select := .mk 1 none [] .none (.clause
  [.mk (.name ["id".toList] false) []] [.aliased (.tableName [] [] "users".toList) [] false]
  (some (.node true [.name ["order".toList] false, .leaf true true])) [] none false [])

/-- a database in which the table `users` has an index on its column `order`, which is a keyword -/
def exOrderEnv : PgEnv (Str × Str × Bool) Unit := { exPgEnv with
  parse := fun _ => .ok [.select exOrder]
  cols := fun _ => .ok [("users".toList, "id".toList, true), ("users".toList, "order".toList, false)]
  select := fun _ => .ok (shownIndexes (fun n => n = "order".toList) [("users".toList, ["order".toList])]) }

/-- **C75**, negation for keywords: the table `users` has an index on `order`, and it is suggested again. -/
theorem C75_keyword_suggested_again : ∃ out, pgSuggest exOrderEnv [] = .ok out ∧
    newIndexTarget "users".toList ["order".toList] ∈ out :=
  ⟨_, okOf_some (l := [newIndexTarget "users".toList ["order".toList],
    newIndexTarget "users".toList ["order".toList, "id".toList]]) (by decide +kernel), by simp⟩

end Verif.Cmd
