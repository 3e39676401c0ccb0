import Verif.Infra.HasuraClient
import Verif.Infra.Suggest
/-!
# C98 with C90: the lookups through Hasura as requests and answers

`/repo/infra/hasura/client.go:60-117`, `/repo/infra/hasura/run_sql_response.go`
-/
namespace Verif.Infra.HClient
open Verif.Lib Verif.Index Verif.Report Verif.Infra.Hasura Verif.Infra.Fetch

/-! ## Model -/

/-- a string of `RunSQLResponse.Result` (`run_sql_response.go:5`): `null` leaves it empty -/
def cellText : Report.Val → Str
  | .str s => s
  | _ => []
/-- a row of `RunSQLResponse.Result`: `null` leaves it empty -/
def rowTexts : Report.Val → List Str
  | .arr vs => vs.map cellText
  | _ => []
/-- `RunSQLResponse.Result`: `null` leaves it empty -/
def rowsTexts : Report.Val → List (List Str)
  | .arr vs => vs.map rowTexts
  | _ => []
/-- `RunSQLResponse.Result` of an answer; it stays empty if the answer has none -/
def resultOf : Report.Val → List (List Str)
  | .obj fs => match Lib.mapGet kResult fs with
    | some v => rowsTexts v
    | none => []
  | _ => []

/-- `/repo/infra/hasura/client.go:66-81` `RunSQL`: the request, and the rows of the answer; `code` names the errors of the
client -/
def runSql (ask : Request → Reply) (code : CErr → Nat) (c : Client) (a : RunSQLArgs) :
    Except Hasura.Err (List (List Str)) :=
  match postResult (ask (sqlRequest c a.sql a.readOnly)) with
  | .error e => .error (.other (code e))
  | .ok (.other _) => .error (.other (code .decode))
  | .ok (.json v) => if runSqlOk v then .ok (resultOf v) else .error (.other (code .decode))

/-! ## Specification -/

/-- the name of the rows in an answer, as Hasura documents it -/
def apiResult : Str := ['r', 'e', 's', 'u', 'l', 't']

/-- rows as JSON -/
def table (rows : List (List Str)) : Report.Val := .arr (rows.map fun r => .arr (r.map .str))

/-- a Hasura server at an address, with a secret, in front of a database: asked there with the secret to read what a
statement finds, it answers, if it answers with success, with the rows that the database finds, below their labels -/
def Fronts (le : Sql.Query.Val → Sql.Query.Val → Prop) (db : Sql.Query.Db) (write : List Str → Str) (address secret : Str)
    (ask : Request → Reply) : Prop :=
  ∀ r sql v s, r.url = address → (apiSecret, secret) ∈ r.headers → RunsSql (.bool true) r.body sql →
    ask r = .http 200 (.ok (.json v)) → Sql.Query.read sql = some s →
    ∃ out header fs, Sql.Query.Answers le db [] s out ∧ v = .obj fs ∧
      Lib.mapGet apiResult fs = some (table (header :: out.map fun r => r.map fun p => cell write p.2))

/-! ## Proofs -/

theorem rowsTexts_table (rows : List (List Str)) : rowsTexts (table rows) = rows := by
  have h1 : ∀ r : List Str, rowTexts (.arr (r.map .str)) = r := by
    intro r
    rw [rowTexts, List.map_map]
    have : cellText ∘ Report.Val.str = id := rfl
    rw [this, List.map_id]
  rw [table, rowsTexts, List.map_map]
  have : rowTexts ∘ (fun r : List Str => Report.Val.arr (r.map .str)) = id := funext h1
  rw [this, List.map_id]

theorem apiResult_eq : apiResult = kResult := by decide +kernel

/-- C90: a lookup that gives rows was answered with success and with rows; anything else is an error. -/
theorem C90_lookup_ok {ask : Request → Reply} {code : CErr → Nat} {c : Client} {a : RunSQLArgs} {cells : List (List Str)}
    (h : runSql ask code c a = .ok cells) :
    ∃ v, ask (sqlRequest c a.sql a.readOnly) = .http 200 (.ok (.json v)) ∧ cells = resultOf v := by
  unfold runSql at h
  cases hr : ask (sqlRequest c a.sql a.readOnly) with
  | noAnswer w => rw [hr] at h; cases h
  | http st b =>
    rw [hr] at h
    unfold postResult at h
    dsimp only at h
    by_cases hst : st = 200
    · subst hst
      rw [if_neg (by simp)] at h
      cases b with
      | error w => cases h
      | ok b =>
        cases b with
        | other t => cases h
        | json v =>
          simp only at h
          split at h
          · cases h
            exact ⟨v, rfl, rfl⟩
          · cases h
    · rw [if_pos hst] at h
      cases h

/-- a run of statements that passes on those marked as reading -/
theorem reading_only {le : Sql.Query.Val → Sql.Query.Val → Prop} {db : Sql.Query.Db} {write : List Str → Str}
    {c : Client} {ask : Request → Reply} (code : CErr → Nat)
    (h : Fronts le db write (resolveURL c.base apiSchema) c.secret ask) :
    ∀ sql cells, runSql ask code c ⟨sql, some true⟩ = .ok cells → ∀ s, Sql.Query.read sql = some s →
      ∃ out header, Sql.Query.Answers le db [] s out ∧ cells = header :: out.map fun r => r.map fun p => cell write p.2 := by
  intro sql cells hrun s hs
  obtain ⟨v, h1, rfl⟩ := C90_lookup_ok hrun
  obtain ⟨r1, r2, r3⟩ := C90_reading c sql
  obtain ⟨out, header, fs, h2, rfl, h3⟩ := h _ _ _ _ r1 r2 r3 h1 hs
  refine ⟨out, header, h2, ?_⟩
  rw [apiResult_eq] at h3
  rw [resultOf, h3]
  exact rowsTexts_table _

/-- only statements marked as reading are ever asked, so what the others would be answered does not matter -/
def onlyReading (run : RunSQLArgs → Except Hasura.Err (List (List Str))) (a : RunSQLArgs) :
    Except Hasura.Err (List (List Str)) :=
  match a.readOnly with
  | some true => run a
  | _ => .error (.other 0)

theorem columns_onlyReading (run : RunSQLArgs → Except Hasura.Err (List (List Str))) (schema : Str) (names : List Str) :
    getTableColumns (onlyReading run) schema names = getTableColumns run schema names := rfl

theorem indexes_onlyReading (scan : Str → Except Hasura.Err (List Str))
    (run : RunSQLArgs → Except Hasura.Err (List (List Str))) (schema : Str) (names : List Str) :
    getIndexes scan (onlyReading run) schema names = getIndexes scan run schema names := rfl

theorem env_onlyReading (scan : Str → Except Hasura.Err (List Str))
    (run : RunSQLArgs → Except Hasura.Err (List (List Str))) (schema : Str)
    (parse : Str → Except (Option Hasura.Err) (List PgScope.Stmt)) (orders : PgScope.Orders) (norm : Str → Str)
    (fuel : Nat) (fold : Char → Char) : hasuraEnv scan (onlyReading run) schema parse orders norm fuel fold =
      hasuraEnv scan run schema parse orders norm fuel fold := rfl

theorem passes_http {le : Sql.Query.Val → Sql.Query.Val → Prop} {db : Sql.Query.Db} {write : List Str → Str}
    {c : Client} {ask : Request → Reply} (code : CErr → Nat)
    (h : Fronts le db write (resolveURL c.base apiSchema) c.secret ask) :
    Passes le db write (onlyReading (runSql ask code c)) := by
  rintro ⟨sql, ro⟩ cells hrun s hs
  unfold onlyReading at hrun
  split at hrun
  · next e =>
    simp only at e
    subst e
    exact reading_only code h sql cells hrun s hs
  · cases hrun

section
open Cmd Cmd.Catalogue
variable (le : Sql.Query.Val → Sql.Query.Val → Prop) (cat : Catalogue) (keyword : Str → Bool) (expr : Nat → Nat → Str)
  (write : List Str → Str) (scan : Str → Except Hasura.Err (List Str)) (hscan : ∀ l, scan (write l) = .ok l)
  (ask : Request → Reply) (code : CErr → Nat) (c : Client) (hix : OneIndex cat)
  (hask : Fronts le (pgDb cat keyword expr) write (resolveURL c.base apiSchema) c.secret ask) (hok : Ok cat) (schema : Str)
  (parse : Str → Except (Option Hasura.Err) (List PgScope.Stmt)) (orders : PgScope.Orders)
  (ho : orders.Ok) (norm : Str → Str) (fuel : Nat) (fold : Char → Char)

include hscan hix hask hok ho in
/-- C98, over HTTP: what is suggested from the answers of a Hasura server in front of a database with this catalogue
consists of columns of the tables that the SQL mentions. -/
theorem C98_suggest_http_sound (query : Str) (s : PgScope.Select) (hp : parse query = .ok [.select s])
    (hpl : PgScope.Spec.Plain s) (hf : PgScope.Spec.Fresh s) (hr : PgScope.Spec.NoRemoteSubquery s)
    (hn : sizeOf s ≤ fuel) (out : List IndexTarget)
    (h : pgSuggest (hasuraEnv scan (runSql ask code c) schema parse orders norm fuel fold) query = .ok out)
    (t : IndexTarget) (ht : t ∈ out) :
    ∀ x ∈ t.columns, (Column cat schema t.tableName x.name ∨ Leftover cat schema t.tableName x.name) ∧
      ∃ y, PgScope.Spec.Below (.s s) (.s y) ∧ ∃ p ∈ PgScope.Spec.places norm y,
        ∃ a, PgScope.Spec.Mentions p.2.2 (.column a x.name) := by
  rw [← env_onlyReading] at h
  exact C98_suggest_hasura_sound le cat keyword expr write scan hscan _ hix (passes_http code hask) hok schema parse
    orders ho norm fuel fold query s hp hpl hf hr hn out h t ht

include hscan hix hask hok ho in
/-- C98, over HTTP: and it is complete for tables with ordinary indexes. -/
theorem C98_suggest_http_complete_partial (btree : Str)
    (hcat : (∀ x ∈ cat.classes, x.name.head? ≠ some '<') ∧ ∀ a ∈ cat.attributes, a.name ≠ [])
    (query : Str) (s : PgScope.Select) (hp : parse query = .ok [.select s]) (hpl : PgScope.Spec.Plain s)
    (hf : PgScope.Spec.Fresh s) (hr : PgScope.Spec.NoRemoteSubquery s) (hs : PgScope.Spec.SingleFrom s)
    (hname : PgScope.Spec.OrdinaryNames norm s) (hn : sizeOf s ≤ fuel) (out : List IndexTarget)
    (h : pgSuggest (hasuraEnv scan (runSql ask code c) schema parse orders norm fuel fold) query = .ok out)
    (t : Str) (cs : List Str) (ht : norm t = t) (hread : PgScope.Spec.ReadsTable norm s t) (hne : cs ≠ [])
    (hnd : cs.Nodup)
    (huse : ∀ n ∈ cs, PgScope.Spec.UsesColumn norm
        (fun t n => Column cat schema t n ∨ Leftover cat schema t n) s t n .condition ∨
      PgScope.Spec.UsesAround norm
        (fun t n => Column cat schema t n ∨ Leftover cat schema t n) s t n .condition)
    (hpk : ∃ n ∈ cs, ¬(KeyColumn cat schema t n ∨ IncludedColumn cat schema t n))
    (hplain : PlainIndexes cat btree keyword schema t) :
    newIndexTarget t cs ∈ out ↔ ¬ Serves cat btree schema fold t cs := by
  rw [← env_onlyReading] at h
  exact C98_suggest_hasura_complete_partial le cat keyword expr write scan hscan _ hix (passes_http code hask) hok schema
    parse orders ho norm fuel fold btree hcat query s hp hpl hf hr hs hname hn out h t cs ht hread hne hnd huse hpk hplain

end

/-- C90: every request of the lookups of columns and of indexes goes to the address given, with the secret, and is marked
as reading. -/
theorem C90_lookups_read (c : Client) (scan : Str → Except Hasura.Err (List Str))
    (run : RunSQLArgs → Except Hasura.Err (List (List Str))) (schema : Str) (names : List Str) :
    ∀ a ∈ (getTableColumns run schema names).2 ++ (getIndexes scan run schema names).2,
      (sqlRequest c a.sql a.readOnly).url = resolveURL c.base apiSchema ∧
      (apiSecret, c.secret) ∈ (sqlRequest c a.sql a.readOnly).headers ∧
      RunsSql (.bool true) (sqlRequest c a.sql a.readOnly).body a.sql := by
  have hro : ∀ a ∈ (getTableColumns run schema names).2 ++ (getIndexes scan run schema names).2,
      a.readOnly = some true := by
    intro a ha
    rw [List.mem_append] at ha
    rcases ha with ha | ha
    · rw [getTableColumns] at ha
      split at ha
      · cases ha
      · simp only at ha
        split at ha <;> rw [List.mem_singleton] at ha <;> rw [ha]
    · rw [getIndexes] at ha
      split at ha
      · cases ha
      · simp only at ha
        split at ha <;> rw [List.mem_singleton] at ha <;> rw [ha]
  intro a ha
  rw [hro a ha]
  exact C90_reading c a.sql

/-! ## A server -/

theorem runsSql_unique {l l' : Leaf} {body sql sql' : Str} (h : RunsSql l body sql) (h' : RunsSql l' body sql') :
    sql = sql' := by
  obtain ⟨b, h1, -, h2, -⟩ := h
  obtain ⟨b', h1', -, h2', -⟩ := h'
  unfold Reads at h1 h1'
  rw [h1] at h1'
  cases h1'
  rw [h2] at h2'
  cases h2'
  rfl

open Classical in
/-- the server of `Verif/Infra/Suggest.lean`, over HTTP -/
noncomputable def exHttp (r : Request) : Reply :=
  if h : ∃ sql, RunsSql (.bool true) r.body sql then
    match Fetch.exServer ⟨h.choose, some true⟩ with
    | .error _ => .http 500 (.error 0)
    | .ok cells => .http 200 (.ok (.json (.obj [(apiResult, table cells)])))
  else .http 400 (.error 0)

theorem exHttp_eq (c : Client) (sql : Str) : exHttp (sqlRequest c sql (some true)) =
    match Fetch.exServer ⟨sql, some true⟩ with
    | .error _ => .http 500 (.error 0)
    | .ok cells => .http 200 (.ok (.json (.obj [(apiResult, table cells)]))) := by
  have h : ∃ sql', RunsSql (.bool true) (sqlRequest c sql (some true)).body sql' := ⟨sql, (C90_reading c sql).2.2⟩
  unfold exHttp
  rw [dif_pos h, runsSql_unique h.choose_spec (C90_reading c sql).2.2]

theorem exHttp_fronts (address secret : Str) : Fronts (fun _ _ => True) (pgDb (Cmd.Catalogue.exCat 'r' Cmd.Catalogue.pkId
    Cmd.Catalogue.onAge) (fun _ => false) (fun _ _ => [])) exEnc address secret exHttp := by
  intro r sql v s _ _ hr hv hs
  unfold exHttp at hv
  have h : ∃ sql', RunsSql (.bool true) r.body sql' := ⟨sql, hr⟩
  rw [dif_pos h, runsSql_unique h.choose_spec hr] at hv
  cases he : Fetch.exServer ⟨sql, some true⟩ with
  | error e => rw [he] at hv; cases hv
  | ok cells =>
    rw [he] at hv
    cases hv
    obtain ⟨out, header, h1, rfl⟩ := exServer_passes _ _ he s hs
    exact ⟨out, header, _, h1, rfl, by simp [Lib.mapGet]⟩

theorem exHttp_run (code : CErr → Nat) (c : Client) (sql : Str) (cells : List (List Str))
    (h : Fetch.exServer ⟨sql, some true⟩ = .ok cells) : runSql exHttp code c ⟨sql, some true⟩ = .ok cells := by
  have hr : runSqlOk (.obj [(apiResult, table cells)]) = true := by
    have h1 : rowsOk (table cells) = true := by
      simp only [table, rowsOk, List.all_map, List.all_eq_true, Function.comp_def, rowOk, cellOk, implies_true]
    have h2 : kResultType ≠ apiResult := by decide +kernel
    rw [runSqlOk, ← apiResult_eq]
    simp [Lib.mapGet, h1, h2]
  unfold runSql
  rw [exHttp_eq, h]
  simp only [postResult, ne_eq, not_true_eq_false, if_false]
  rw [if_pos hr, resultOf, ← apiResult_eq]
  simp [Lib.mapGet, rowsTexts_table]

/-- over HTTP the lookup of the columns of the example gives the same columns -/
example (code : CErr → Nat) (c : Client) (schema : Str) (names : List Str) (infos : List ColumnInfo)
    (h : (getTableColumns Fetch.exServer schema names).1 = some (.ok infos)) :
    (getTableColumns (runSql exHttp code c) schema names).1 = some (.ok infos) := by
  rw [getTableColumns] at h ⊢
  split at h
  · cases h
  · simp only at h ⊢
    split at h
    · cases h
    · next cells hc =>
      rw [exHttp_run code c _ _ hc]
      exact h

end Verif.Infra.HClient
