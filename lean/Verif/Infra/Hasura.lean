import Verif.Lib.Chars
import Verif.Common
import Verif.Index.Lemmas
import Verif.Sql.Lex
/-!
# C40: catalogue queries sent to Hasura (`/repo/infra/hasura/{column_info,index_info,client}.go`)
-/
namespace Verif.Infra.Hasura
open Verif.Index Verif.Sql

abbrev Str := List Char

/-! ## Model -/

/-- The text of a fetch query, cut at its two placeholders `?`. -/
structure Template where
  pre : Str
  mid : Str
  post : Str

/-- the query text with its placeholders -/
def Template.text (t : Template) : Str := t.pre ++ '?' :: (t.mid ++ '?' :: t.post)

/-- `/repo/infra/hasura/column_info.go:11-29` `columnFetchQuery` -/
def columnFetchQuery : Template where
  pre := c!"
SELECT
	pg_class.relname AS table_name,
	pg_attribute.attname AS column_name,
	COALESCE(pg_index.indisprimary, FALSE) AS is_pk
FROM
	pg_class
	INNER JOIN pg_attribute ON pg_attribute.attrelid = pg_class.oid
	INNER JOIN pg_namespace ON pg_class.relnamespace = pg_namespace.oid
	LEFT OUTER JOIN pg_index ON pg_class.oid = pg_index.indrelid AND pg_attribute.attnum = ANY(pg_index.indkey)
WHERE
	pg_namespace.nspname = "
  mid := c!" AND
	pg_class.relname IN ("
  post := c!") AND
	pg_class.relkind = 'r' AND
	pg_attribute.attnum >= 0
ORDER BY
	pg_class.relname,
	pg_attribute.attnum
"

/-- `/repo/infra/hasura/index_info.go:11-29` `indexFetchQuery` -/
def indexFetchQuery : Template where
  pre := c!"
SELECT 
	t.relname AS table_name,
	ARRAY(
		SELECT PG_GET_INDEXDEF(pg_index.indexrelid, k + 1, TRUE)
		FROM GENERATE_SUBSCRIPTS(pg_index.indkey, 1) AS k
		ORDER BY k
	) AS column_names
FROM pg_index
	INNER JOIN pg_class AS i ON pg_index.indexrelid = i.oid
	INNER JOIN pg_class AS t ON pg_index.indrelid = t.oid
	INNER JOIN pg_namespace ON i.relnamespace = pg_namespace.oid
WHERE
	pg_namespace.nspname = "
  mid := c!" AND
	t.relname IN ("
  post := c!")
ORDER BY
	t.relname,
	i.relname
"

/-- `strings.Replace(s, "?", new, 1)` -/
def replaceFirst (new : Str) : Str → Str
  | [] => []
  | c :: cs => if c = '?' then new ++ cs else c :: replaceFirst new cs

/-- errors: a refused schema name, a refused table name, anything from elsewhere -/
inductive Err where
  | schema (s : Str)
  | table (t : Str)
  | other (n : Nat)
deriving DecidableEq, Repr

/-- the loop over the table names, `/repo/infra/hasura/column_info.go:43-47` -/
def checkTables : List Str → Except Err Unit
  | [] => .ok ()
  | t :: ts => if Regex.isMatch wordOnlyReg t then checkTables ts else .error (.table t)

/-- `buildColumnFetchQuery` (`/repo/infra/hasura/column_info.go:39-53`) and `buildIndexFetchQuery`
(`/repo/infra/hasura/index_info.go:36-50`), which differ only in the template.  Both use the
package's `wordOnlyReg` (`column_info.go:37`), the same expression as the one of `dmodel`. -/
def buildFetchQuery (tpl : Template) (schema : Str) (tables : List Str) : Except Err Str :=
  if Regex.isMatch wordOnlyReg schema then
    match checkTables tables with
    | .error e => .error e
    | .ok _ =>
      let ts := joinWith [','] (tables.map fun t => '\'' :: t ++ ['\''])
      let q := replaceFirst ('\'' :: schema ++ ['\'']) tpl.text
      .ok (replaceFirst ts q)
  else .error (.schema schema)

/-- `/repo/infra/hasura/run_sql_args.go`; the fields never set are left out. -/
structure RunSQLArgs where
  sql : Str
  readOnly : Option Bool
deriving DecidableEq, Repr

/-- `/repo/infra/hasura/column_info.go:31-35` -/
structure ColumnInfo where
  columnName : Str
  isPK : Bool
  tableName : Str
deriving DecidableEq, Repr

/-- one row of `parseColumnFetchResult` (`/repo/infra/hasura/column_info.go:63-73`); `none` is the
index panic of a row with fewer than three cells. -/
def parseColumnRow : List Str → Option ColumnInfo
  | t :: c :: pk :: _ => some ⟨c, decide (pk = ['t']), t⟩
  | _ => none

/-- `/repo/infra/hasura/column_info.go:55-76` `parseColumnFetchResult`: the first row holds the column
names. -/
def parseColumnFetchResult (rows : List (List Str)) : Option (List ColumnInfo) :=
  (rows.drop 1).mapM parseColumnRow

/-- `/repo/infra/hasura/index_info.go:52-73` `parseIndexFetchResult`; `scan` is `pq.StringArray.Scan`;
outer `none` is the index panic of a short row.  The table name is read after the columns were
scanned (66-68), which makes no difference. -/
def parseIndexRows (scan : Str → Except Err (List Str)) :
    List (List Str) → Option (Except Err (List (Str × List Str)))
  | [] => some (.ok [])
  | (t :: c :: _) :: rows => match scan c with
    | .error e => some (.error e)
    | .ok cols => (parseIndexRows scan rows).map fun
      | .error e => .error e
      | .ok is => .ok ((t, cols) :: is)
  | _ :: _ => none

/-- `/repo/infra/hasura/client.go:83-99` `GetTableColumns`; `run` is `RunSQL` answering the rows of the
response.  The result carries the requests sent; its outer `none` is a panic. -/
def getTableColumns (run : RunSQLArgs → Except Err (List (List Str))) (schema : Str)
    (tables : List Str) : Option (Except Err (List ColumnInfo)) × List RunSQLArgs :=
  match buildFetchQuery columnFetchQuery schema tables with
  | .error e => (some (.error e), [])
  | .ok q =>
    let args : RunSQLArgs := ⟨q, some true⟩
    match run args with
    | .error e => (some (.error e), [args])
    | .ok rows => ((parseColumnFetchResult rows).map .ok, [args])

/-- `/repo/infra/hasura/client.go:101-117` `GetIndexes` -/
def getIndexes (scan : Str → Except Err (List Str)) (run : RunSQLArgs → Except Err (List (List Str)))
    (schema : Str) (tables : List Str) :
    Option (Except Err (List (Str × List Str))) × List RunSQLArgs :=
  match buildFetchQuery indexFetchQuery schema tables with
  | .error e => (some (.error e), [])
  | .ok q =>
    let args : RunSQLArgs := ⟨q, some true⟩
    match run args with
    | .error e => (some (.error e), [args])
    | .ok rows => (parseIndexRows scan (rows.drop 1), [args])

/-! ## Specification -/

/-- a name made of word characters -/
def Word (s : Str) : Prop := s ≠ [] ∧ ∀ c ∈ s, Regex.isWord c = true

/-- replace the placeholders among the tokens of a query, one after the other -/
def fill : List (List Tok) → List Tok → List Tok
  | _, [] => []
  | [], ts => ts
  | r :: rs, t :: ts => if t = .sym '?' then r ++ fill rs ts else t :: fill (r :: rs) ts

/-- the tokens of a list of literals -/
def literals : List Str → List Tok
  | [] => []
  | [t] => [.quoted t]
  | t :: ts => .quoted t :: .sym ',' :: literals ts

/-! ## Proofs -/

/-- reading a first part of a text -/
def lexPart (q : Char) : LS → Str → List Tok × LS
  | st, [] => ([], st)
  | .out, c :: cs => ((start q c).1 ++ (lexPart q (start q c).2 cs).1, (lexPart q (start q c).2 cs).2)
  | .word a, c :: cs =>
    if Regex.isWord c then lexPart q (.word (a ++ [c])) cs
    else (.word a :: (start q c).1 ++ (lexPart q (start q c).2 cs).1, (lexPart q (start q c).2 cs).2)
  | .quo a, c :: cs => if c = q then lexPart q (.quoEnd a) cs else lexPart q (.quo (a ++ [c])) cs
  | .quoEnd a, c :: cs =>
    if c = q then lexPart q (.quo (a ++ [q])) cs
    else (.quoted a :: (start q c).1 ++ (lexPart q (start q c).2 cs).1, (lexPart q (start q c).2 cs).2)

theorem lexGo_append (q : Char) : ∀ (a b : Str) (st : LS),
    lexGo q st (a ++ b) = (lexGo q (lexPart q st a).2 b).map ((lexPart q st a).1 ++ ·)
  | [], b, st => by cases st <;> simp [lexPart]
  | c :: a, b, .out => by
    rw [List.cons_append, lexGo, lexPart, lexGo_append q a b]
    cases lexGo q (lexPart q (start q c).2 a).2 b <;> simp
  | c :: a, b, .word w => by
    rw [List.cons_append, lexGo, lexPart]
    split
    · rw [lexGo_append q a b]
    · rw [lexGo_append q a b]
      cases lexGo q (lexPart q (start q c).2 a).2 b <;> simp
  | c :: a, b, .quo w => by
    rw [List.cons_append, lexGo, lexPart]
    split <;> rw [lexGo_append q a b]
  | c :: a, b, .quoEnd w => by
    rw [List.cons_append, lexGo, lexPart]
    split
    · rw [lexGo_append q a b]
    · rw [lexGo_append q a b]
      cases lexGo q (lexPart q (start q c).2 a).2 b <;> simp

theorem start_sym (q c : Char) (hc : c ≠ '?') : Tok.sym '?' ∉ (start q c).1 := by
  unfold start
  split
  · simp
  · split
    · simp
    · split
      · simp
      · simp [hc.symm]

theorem lexPart_sym (q : Char) : ∀ (a : Str) (st : LS), '?' ∉ a → Tok.sym '?' ∉ (lexPart q st a).1
  | [], st, _ => by cases st <;> simp [lexPart]
  | c :: a, st, h => by
    have hc : c ≠ '?' := fun e => h (by simp [e])
    have ha : '?' ∉ a := fun e => h (by simp [e])
    have hs := start_sym q c hc
    cases st with
    | out =>
      rw [lexPart]
      simp only [List.mem_append, not_or]
      exact ⟨hs, lexPart_sym q a _ ha⟩
    | word w =>
      rw [lexPart]
      split
      · exact lexPart_sym q a _ ha
      · simp only [List.cons_append, List.mem_cons, List.mem_append, not_or]
        exact ⟨by simp, hs, lexPart_sym q a _ ha⟩
    | quo w =>
      rw [lexPart]
      split <;> exact lexPart_sym q a _ ha
    | quoEnd w =>
      rw [lexPart]
      split
      · exact lexPart_sym q a _ ha
      · simp only [List.cons_append, List.mem_cons, List.mem_append, not_or]
        exact ⟨by simp, hs, lexPart_sym q a _ ha⟩

theorem fill_append (rs : List (List Tok)) (a b : List Tok) (h : Tok.sym '?' ∉ a) :
    fill rs (a ++ b) = a ++ fill rs b := by
  induction a with
  | nil => rfl
  | cons t a ih =>
    have ht : t ≠ Tok.sym '?' := fun e => h (by simp [e])
    have := ih (fun e => h (by simp [e]))
    cases rs with
    | nil => cases b <;> simp [fill]
    | cons r rs => simp only [List.cons_append, fill, ht, if_false, this]

theorem replaceFirst_append (new a b : Str) (h : '?' ∉ a) :
    replaceFirst new (a ++ '?' :: b) = a ++ (new ++ b) := by
  induction a with
  | nil => simp [replaceFirst]
  | cons c a ih =>
    have hc : c ≠ '?' := fun e => h (by simp [e])
    simp only [List.cons_append, replaceFirst, hc, if_false, ih (fun e => h (by simp [e]))]

theorem word_not (s : Str) (h : Word s) (c : Char) (hc : Regex.isWord c = false) : c ∉ s :=
  fun hm => by rw [h.2 c hm] at hc; cases hc

/-- list of literals followed by a closing parenthesis -/
theorem lex_literals (rest : Str) : ∀ tables : List Str, (∀ t ∈ tables, Word t) →
    lexGo '\'' .out (joinWith [','] (tables.map fun t => '\'' :: t ++ ['\'']) ++ ')' :: rest) =
      (lexGo '\'' .out (')' :: rest)).map (literals tables ++ ·)
  | [], _ => by simp [joinWith, literals]
  | [t], h => by
    have := lexGo_out_quoted '\'' t ')' rest
      (word_not t (h t (by simp)) _ (by decide)) (by decide)
    simp only [List.map_cons, List.map_nil, joinWith, literals]
    simp only [List.cons_append, List.append_assoc, List.nil_append] at this ⊢
    rw [this]
  | t :: t' :: ts, h => by
    have ih := lex_literals rest (t' :: ts) (fun x hx => h x (List.mem_cons_of_mem _ hx))
    have hq := lexGo_out_quoted '\'' t ','
      (joinWith [','] ((t' :: ts).map fun t => '\'' :: t ++ ['\'']) ++ ')' :: rest)
      (word_not t (h t (by simp)) _ (by decide)) (by decide)
    simp only [List.map_cons, joinWith, literals] at ih ⊢
    simp only [List.cons_append, List.append_assoc, List.nil_append, List.map_cons] at hq ih ⊢
    rw [hq, lexGo_out_sym '\'' ',' _ (by decide) (by decide) (by decide), ih]
    simp only [Option.map_map]
    congr 1

/-- what the two templates have in common -/
structure Template.Good (t : Template) : Prop where
  pre : '?' ∉ t.pre
  mid : '?' ∉ t.mid
  post : '?' ∉ t.post
  preOut : (lexPart '\'' .out t.pre).2 = .out
  midOut : (lexPart '\'' .out t.mid).2 = .out
  midStart : ∃ r, t.mid = ' ' :: r
  postStart : ∃ r, t.post = ')' :: r

theorem column_good : columnFetchQuery.Good :=
  ⟨by decide +kernel, by decide +kernel, by decide +kernel, by decide +kernel, by decide +kernel,
    ⟨columnFetchQuery.mid.drop 1, by decide +kernel⟩, ⟨columnFetchQuery.post.drop 1, by decide +kernel⟩⟩

theorem index_good : indexFetchQuery.Good :=
  ⟨by decide +kernel, by decide +kernel, by decide +kernel, by decide +kernel, by decide +kernel,
    ⟨indexFetchQuery.mid.drop 1, by decide +kernel⟩, ⟨indexFetchQuery.post.drop 1, by decide +kernel⟩⟩

theorem checkTables_ok (ts : List Str) : checkTables ts = .ok () ↔ ∀ t ∈ ts, Word t := by
  induction ts with
  | nil => simp [checkTables]
  | cons t ts ih =>
    rw [checkTables]
    by_cases h : Regex.isMatch wordOnlyReg t = true
    · rw [if_pos h, ih]
      simp only [List.mem_cons, forall_eq_or_imp]
      exact ⟨fun x => ⟨(wordOnly_iff t).mp h, x⟩, fun x => x.2⟩
    · rw [if_neg h]
      constructor
      · intro e; cases e
      · intro e
        exact absurd ((wordOnly_iff t).mpr (e t (by simp))) h

theorem checkTables_error (ts : List Str) (e : Err) (h : checkTables ts = .error e) :
    ∃ a t b, ts = a ++ t :: b ∧ (∀ x ∈ a, Word x) ∧ ¬ Word t ∧ e = .table t := by
  induction ts with
  | nil => simp [checkTables] at h
  | cons t ts ih =>
    rw [checkTables] at h
    by_cases hm : Regex.isMatch wordOnlyReg t = true
    · rw [if_pos hm] at h
      obtain ⟨a, t', b, h1, h2, h3, h4⟩ := ih h
      refine ⟨t :: a, t', b, by simp [h1], ?_, h3, h4⟩
      intro x hx
      rcases List.mem_cons.mp hx with rfl | hx
      · exact (wordOnly_iff x).mp hm
      · exact h2 x hx
    · rw [if_neg hm, Except.error.injEq] at h
      exact ⟨[], t, ts, rfl, by simp, fun hw => hm ((wordOnly_iff t).mpr hw), h.symm⟩

theorem lex_filled (tpl : Template) (hg : tpl.Good) (schema : Str) (tables : List Str)
    (hs : Word schema) (ht : ∀ t ∈ tables, Word t) :
    lex '\'' (replaceFirst (joinWith [','] (tables.map fun t => '\'' :: t ++ ['\'']))
        (replaceFirst ('\'' :: schema ++ ['\'']) tpl.text)) =
      (lex '\'' tpl.text).map (fill [[.quoted schema], literals tables]) := by
  obtain ⟨m, hm⟩ := hg.midStart
  obtain ⟨p, hp⟩ := hg.postStart
  have hpost := hg.post
  have hmid := hg.midOut
  unfold Template.text
  rw [replaceFirst_append _ _ _ hg.pre]
  have hr : tpl.pre ++ ('\'' :: schema ++ ['\''] ++ (tpl.mid ++ '?' :: tpl.post)) =
      (tpl.pre ++ ('\'' :: schema ++ ['\''] ++ tpl.mid)) ++ '?' :: tpl.post := by simp
  rw [hr, replaceFirst_append]
  · have hr2 : (tpl.pre ++ ('\'' :: schema ++ ['\''] ++ tpl.mid)) ++
        (joinWith [','] (tables.map fun t => '\'' :: t ++ ['\'']) ++ tpl.post) =
        tpl.pre ++ ('\'' :: schema ++ '\'' :: (tpl.mid ++
          (joinWith [','] (tables.map fun t => '\'' :: t ++ ['\'']) ++ tpl.post))) := by simp
    rw [hr2]
    unfold lex
    rw [lexGo_append _ tpl.pre, lexGo_append _ tpl.pre, hg.preOut]
    -- left: the schema literal
    have hl : lexGo '\'' .out ('\'' :: schema ++ '\'' :: (tpl.mid ++
          (joinWith [','] (tables.map fun t => '\'' :: t ++ ['\'']) ++ tpl.post))) =
        (lexGo '\'' .out (tpl.mid ++
          (joinWith [','] (tables.map fun t => '\'' :: t ++ ['\'']) ++ tpl.post))).map
            (.quoted schema :: ·) := by
      rw [hm]
      exact lexGo_out_quoted '\'' schema ' ' _ (word_not schema hs _ (by decide)) (by decide)
    rw [hl, lexGo_append _ tpl.mid, hg.midOut, hp, lex_literals p tables ht, ← hp]
    rw [lexGo_out_sym '\'' '?' _ (by decide) (by decide) (by decide), lexGo_append _ tpl.mid,
      hg.midOut, lexGo_out_sym '\'' '?' _ (by decide) (by decide) (by decide)]
    cases hx : lexGo '\'' .out tpl.post with
    | none => simp
    | some xs =>
      simp only [Option.map_some, Option.some.injEq]
      rw [fill_append _ _ _ (lexPart_sym _ _ _ hg.pre)]
      congr 1
      rw [fill, if_pos rfl]
      rw [fill_append _ _ _ (lexPart_sym _ _ _ hg.mid), fill, if_pos rfl]
      cases xs <;> simp [fill]
  · simp only [List.mem_append, List.mem_cons, not_or, List.not_mem_nil]
    refine ⟨hg.pre, ⟨⟨by decide, word_not schema hs _ (by decide)⟩, by decide, by simp⟩, hg.mid⟩

/-- C40: with word-only names, the query is read as its template with the schema and the table
names as string literals in place of the placeholders; in particular nothing else of it depends on
the names. -/
theorem C40_literals (tpl : Template) (ht : tpl = columnFetchQuery ∨ tpl = indexFetchQuery)
    (schema : Str) (tables : List Str) (q : Str) (h : buildFetchQuery tpl schema tables = .ok q) :
    lex '\'' q = (lex '\'' tpl.text).map (fill [[.quoted schema], literals tables]) := by
  have hg : tpl.Good := by
    rcases ht with rfl | rfl
    · exact column_good
    · exact index_good
  unfold buildFetchQuery at h
  by_cases hs : Regex.isMatch wordOnlyReg schema = true
  · rw [if_pos hs] at h
    cases hc : checkTables tables with
    | error e => simp only [hc] at h; cases h
    | ok u =>
      simp only [hc, Except.ok.injEq] at h
      rw [← h]
      exact lex_filled tpl hg schema tables ((wordOnly_iff schema).mp hs)
        ((checkTables_ok tables).mp hc)
  · rw [if_neg hs] at h
    cases h

/-- C40: a query is built exactly when all names are words. -/
theorem C40_accepts_iff (tpl : Template) (schema : Str) (tables : List Str) :
    (∃ q, buildFetchQuery tpl schema tables = .ok q) ↔ Word schema ∧ ∀ t ∈ tables, Word t := by
  unfold buildFetchQuery
  rw [← checkTables_ok]
  by_cases hs : Regex.isMatch wordOnlyReg schema = true
  · rw [if_pos hs]
    have hw := (wordOnly_iff schema).mp hs
    cases hc : checkTables tables with
    | error e => simp
    | ok u => exact ⟨fun _ => ⟨hw, rfl⟩, fun _ => ⟨_, rfl⟩⟩
  · rw [if_neg hs]
    constructor
    · rintro ⟨q, h⟩; cases h
    · intro h
      exact absurd ((wordOnly_iff schema).mpr h.1) hs

/-- C40: a refusal names the first offending name. -/
theorem C40_refused (tpl : Template) (schema : Str) (tables : List Str) (e : Err)
    (h : buildFetchQuery tpl schema tables = .error e) :
    (¬ Word schema ∧ e = .schema schema) ∨
    (Word schema ∧ ∃ a t b, tables = a ++ t :: b ∧ (∀ x ∈ a, Word x) ∧ ¬ Word t ∧ e = .table t) := by
  unfold buildFetchQuery at h
  by_cases hs : Regex.isMatch wordOnlyReg schema = true
  · right
    refine ⟨(wordOnly_iff schema).mp hs, ?_⟩
    rw [if_pos hs] at h
    cases hc : checkTables tables with
    | error e' =>
      simp only [hc, Except.error.injEq] at h
      subst h
      exact checkTables_error tables e' hc
    | ok u => simp only [hc] at h; cases h
  · left
    rw [if_neg hs, Except.error.injEq] at h
    exact ⟨fun hw => hs ((wordOnly_iff schema).mpr hw), h.symm⟩

/-- C40: a lookup sends at most one request, read-only; none at all if a name is refused. -/
theorem C40_requests (scan : Str → Except Err (List Str)) (run : RunSQLArgs → Except Err (List (List Str)))
    (schema : Str) (tables : List Str) :
    ((¬ Word schema ∨ ∃ t ∈ tables, ¬ Word t) →
      (getTableColumns run schema tables).2 = [] ∧ (getIndexes scan run schema tables).2 = []) ∧
    ((Word schema ∧ ∀ t ∈ tables, Word t) →
      (∃ q, buildFetchQuery columnFetchQuery schema tables = .ok q ∧
        (getTableColumns run schema tables).2 = [⟨q, some true⟩]) ∧
      ∃ q, buildFetchQuery indexFetchQuery schema tables = .ok q ∧
        (getIndexes scan run schema tables).2 = [⟨q, some true⟩]) := by
  constructor
  · intro h
    have hno : ∀ tpl, ∃ e, buildFetchQuery tpl schema tables = .error e := by
      intro tpl
      cases hb : buildFetchQuery tpl schema tables with
      | error e => exact ⟨e, rfl⟩
      | ok q =>
        have := (C40_accepts_iff tpl schema tables).mp ⟨q, hb⟩
        rcases h with h | ⟨t, ht, h⟩
        · exact absurd this.1 h
        · exact absurd (this.2 t ht) h
    obtain ⟨e1, h1⟩ := hno columnFetchQuery
    obtain ⟨e2, h2⟩ := hno indexFetchQuery
    simp [getTableColumns, getIndexes, h1, h2]
  · intro h
    obtain ⟨q1, h1⟩ := (C40_accepts_iff columnFetchQuery schema tables).mpr h
    obtain ⟨q2, h2⟩ := (C40_accepts_iff indexFetchQuery schema tables).mpr h
    refine ⟨⟨q1, h1, ?_⟩, q2, h2, ?_⟩
    · simp only [getTableColumns, h1]
      split <;> rfl
    · simp only [getIndexes, h2]
      split <;> rfl

theorem parseRows (rows : List (Str × Str × Str)) :
    (rows.map fun r => [r.1, r.2.1, r.2.2]).mapM parseColumnRow =
      some (rows.map fun r => ⟨r.2.1, decide (r.2.2 = ['t']), r.1⟩) := by
  induction rows with
  | nil => rfl
  | cons r rows ih =>
    rw [List.map_cons, List.mapM_cons, ih]
    rfl

/-- C40: the answer's rows after the header become the columns, in order. -/
theorem C40_columns (run : RunSQLArgs → Except Err (List (List Str))) (schema : Str)
    (tables : List Str) (header : List Str) (rows : List (Str × Str × Str))
    (hw : Word schema ∧ ∀ t ∈ tables, Word t)
    (hr : ∀ a, run a = .ok (header :: rows.map fun r => [r.1, r.2.1, r.2.2])) :
    (getTableColumns run schema tables).1 =
      some (.ok (rows.map fun r => ⟨r.2.1, decide (r.2.2 = ['t']), r.1⟩)) := by
  obtain ⟨q, h⟩ := (C40_accepts_iff columnFetchQuery schema tables).mpr hw
  simp only [getTableColumns, h, hr, parseColumnFetchResult, List.drop_succ_cons, List.drop_zero]
  rw [parseRows]
  rfl

theorem parseIndexRows_ok (scan : Str → Except Err (List Str)) (rows : List (Str × Str × List Str))
    (h : ∀ r ∈ rows, scan r.2.1 = .ok r.2.2) :
    parseIndexRows scan (rows.map fun r => [r.1, r.2.1]) =
      some (.ok (rows.map fun r => (r.1, r.2.2))) := by
  induction rows with
  | nil => rfl
  | cons r rows ih =>
    have h1 := h r (by simp)
    have h2 := ih (fun x hx => h x (List.mem_cons_of_mem _ hx))
    simp only [List.map_cons, parseIndexRows, h1, h2, Option.map_some]

theorem parseIndexRows_error (scan : Str → Except Err (List Str)) (rows : List (Str × Str × List Str))
    (t c : Str) (rest : List (List Str)) (e : Err) (h : ∀ r ∈ rows, scan r.2.1 = .ok r.2.2)
    (he : scan c = .error e) :
    parseIndexRows scan ((rows.map fun r => [r.1, r.2.1]) ++ [t, c] :: rest) = some (.error e) := by
  induction rows with
  | nil => simp [parseIndexRows, he]
  | cons r rows ih =>
    have h1 := h r (by simp)
    have h2 := ih (fun x hx => h x (List.mem_cons_of_mem _ hx))
    simp only [List.map_cons, List.cons_append, parseIndexRows, h1, h2, Option.map_some]

/-- C40: the answer's rows after the header become the indexes, in order; one unreadable column list
fails the lookup. -/
theorem C40_indexes (scan : Str → Except Err (List Str)) (run : RunSQLArgs → Except Err (List (List Str)))
    (schema : Str) (tables : List Str) (header : List Str) (rows : List (Str × Str × List Str))
    (hw : Word schema ∧ ∀ t ∈ tables, Word t) (hsc : ∀ r ∈ rows, scan r.2.1 = .ok r.2.2) :
    ((∀ a, run a = .ok (header :: rows.map fun r => [r.1, r.2.1])) →
      (getIndexes scan run schema tables).1 = some (.ok (rows.map fun r => (r.1, r.2.2)))) ∧
    ∀ t c rest e, scan c = .error e →
      (∀ a, run a = .ok (header :: ((rows.map fun r => [r.1, r.2.1]) ++ [t, c] :: rest))) →
      (getIndexes scan run schema tables).1 = some (.error e) := by
  obtain ⟨q, h⟩ := (C40_accepts_iff indexFetchQuery schema tables).mpr hw
  constructor
  · intro hr
    simp only [getIndexes, h, hr, List.drop_succ_cons, List.drop_zero]
    exact parseIndexRows_ok scan rows hsc
  · intro t c rest e he hr
    simp only [getIndexes, h, hr, List.drop_succ_cons, List.drop_zero]
    exact parseIndexRows_error scan rows t c rest e hsc he

/-- C40: a row with too few cells crashes the lookup. -/
theorem C40_short_row_panics (run : RunSQLArgs → Except Err (List (List Str))) (schema : Str)
    (tables : List Str) (header : List Str) (hw : Word schema ∧ ∀ t ∈ tables, Word t)
    (hr : ∀ a, run a = .ok [header, []]) : (getTableColumns run schema tables).1 = none := by
  obtain ⟨q, h⟩ := (C40_accepts_iff columnFetchQuery schema tables).mpr hw
  simp only [getTableColumns, h, hr]
  rfl

/-- two tables -/
example : (match buildFetchQuery indexFetchQuery "public".toList ["users".toList, "todos".toList] with
    | .ok q => (lex '\'' q).map (fun ts => ts.filter (fun t => match t with | .quoted _ => true | _ => false))
    | .error _ => none) =
    some [.quoted "public".toList, .quoted "users".toList, .quoted "todos".toList] := by decide +kernel

/-- an injection is refused -/
example : buildFetchQuery indexFetchQuery "public".toList ["users".toList, "x') --".toList] =
    .error (.table "x') --".toList) := by decide +kernel

end Verif.Infra.Hasura
