import Verif.Lib.Chars
import Verif.Sql.Query
import Verif.Infra.Hasura
import Verif.Cmd.Catalogue
import Verif.Cmd.MyCatalogue
import Verif.Dec
/-!
# C98: the text of the catalogue queries (`/repo/infra/{postgres,mysql,hasura}/{column_info,index_info,db,client}.go`)

From the constant in the code, through `sqlx.In` and `Rebind` (or, for Hasura, string replacement), to the rows the
server answers with: read as SQL (`Verif/Sql/Query.lean`), the texts mean the relational expressions of
`Verif/Cmd/{Catalogue,MyCatalogue}.lean`.
-/
namespace Verif.Infra.Fetch
open Verif.Sql Verif.Sql.Query Verif.Infra.Hasura

/-! ## Model -/

/-- `/repo/infra/postgres/column_info.go:3-21` `columnFetchQuery`, cut at its placeholders -/
def pgColumns : Template where
  pre := c!"
SELECT
	pg_class.relname AS table_name,
	pg_attribute.attname AS column_name,
	COALESCE(pg_index.indisprimary, FALSE) AS is_pk
FROM
	pg_class
	INNER JOIN pg_attribute ON pg_attribute.attrelid = pg_class.oid
	INNER JOIN pg_namespace ON pg_class.relnamespace = pg_namespace.oid
	LEFT OUTER JOIN pg_index ON pg_class.oid = pg_index.indrelid AND pg_attribute.attnum = ANY(pg_index.indkey)
WHERE
	pg_namespace.nspname = "
  mid := c!" AND
	pg_class.relname IN ("
  post := c!") AND
	pg_class.relkind = 'r' AND
	pg_attribute.attnum >= 0
ORDER BY
	pg_class.relname,
	pg_attribute.attnum;
"

/-- `/repo/infra/postgres/index_info.go:8-27` `indexFetchQuery` -/
def pgIndexes : Template where
  pre := c!"
SELECT 
	i.relname AS index_name,
	t.relname AS table_name,
	ARRAY(
		SELECT PG_GET_INDEXDEF(pg_index.indexrelid, k + 1, TRUE)
		FROM GENERATE_SUBSCRIPTS(pg_index.indkey, 1) AS k
		ORDER BY k
	) AS column_names
FROM pg_index
	INNER JOIN pg_class AS i ON pg_index.indexrelid = i.oid
	INNER JOIN pg_class AS t ON pg_index.indrelid = t.oid
	INNER JOIN pg_namespace ON i.relnamespace = pg_namespace.oid
WHERE
	pg_namespace.nspname = "
  mid := c!" AND
	t.relname IN ("
  post := c!")
ORDER BY
	t.relname,
	i.relname
"

/-- `/repo/infra/mysql/column_info.go:3-14` `columnFetchQuery` -/
def myColumns : Template where
  pre := c!"
SELECT
	COLUMN_NAME,
	COLUMN_KEY,
	TABLE_NAME 
FROM
	information_schema.columns
WHERE
  	TABLE_SCHEMA = "
  mid := c!" AND
  	TABLE_NAME IN ("
  post := c!")
ORDER BY TABLE_NAME, ORDINAL_POSITION
"

/-- `/repo/infra/mysql/index_info.go:3-15` `indexFetchQuery` -/
def myIndexes : Template where
  pre := c!"
SELECT
	TABLE_NAME,
	INDEX_NAME,
	COLUMN_NAME
FROM
	information_schema.STATISTICS
WHERE
	TABLE_SCHEMA = "
  mid := c!" AND
	TABLE_NAME IN ("
  post := c!")
ORDER BY
	TABLE_NAME, INDEX_NAME, SEQ_IN_INDEX
"

/-- arguments of `sqlx.In`: a string or a slice of strings -/
inductive Arg where
  | one (s : Str)
  | many (l : List Str)

/-- errors: of `sqlx.In` (an empty slice, more placeholders than arguments, fewer), of the database, of scanning -/
inductive Err (E : Type) where
  | empty
  | exceeds
  | fewer
  | db (e : E)
  | scan

/-- `, ?` so many times -/
def marks : Nat → Str
  | 0 => []
  | n + 1 => ',' :: ' ' :: '?' :: marks n

/-- the loop of `sqlx.In`: each `?` takes the next argument; that of a slice is repeated (from the source of
`github.com/jmoiron/sqlx`, `bind.go`; not from the repository) -/
def expand {E : Type} : List Arg → Str → Except (Err E) (Str × List Str)
  | [], [] => .ok ([], [])
  | _ :: _, [] => .error .fewer
  | as, c :: cs =>
    if c = '?' then
      match as with
      | [] => .error .exceeds
      | .one s :: as => match expand as cs with
        | .error e => .error e
        | .ok (q, l) => .ok ('?' :: q, s :: l)
      | .many ss :: as => match expand as cs with
        | .error e => .error e
        | .ok (q, l) => .ok ('?' :: (marks (ss.length - 1) ++ q), ss ++ l)
    else match expand as cs with
      | .error e => .error e
      | .ok (q, l) => .ok (c :: q, l)

/-- `sqlx.In(query, name, names)` -/
def sqlxIn {E : Type} (query name : Str) (names : List Str) : Except (Err E) (Str × List Str) :=
  if names = [] then .error .empty else expand [.one name, .many names] query

/-- `db.Rebind` for PostgreSQL: placeholders become `$1`, `$2`, … (from the source of `sqlx`) -/
def rebind : Nat → Str → Str
  | _, [] => []
  | j, c :: cs => if c = '?' then '$' :: (dec (j + 1) ++ rebind (j + 1) cs) else c :: rebind j cs

/-- a value into a field of type string; the field of a label that the answer lacks stays empty -/
def intoString : Option Val → Option Str
  | none => some []
  | some (.text s) => some s
  | some _ => none

/-- a value into a field of type bool -/
def intoBool : Option Val → Option Bool
  | none => some false
  | some (.bool b) => some b
  | some _ => none

/-- a value into a `pq.StringArray`; NULL gives the empty one -/
def intoStrings : Option Val → Option (List Str)
  | none => some []
  | some .null => some []
  | some (.texts l) => some l
  | some _ => none

/-- `Select` refuses a row with a label that no field has.  Labels are compared in lower case. -/
def labels (l : List Str) (r : Row) : Bool := r.all fun p => decide (p.1 ∈ l)

/-- `/repo/infra/postgres/column_info.go:23-27` -/
structure PgColumn where
  columnName : Str
  isPK : Bool
  tableName : Str
deriving DecidableEq

/-- `Select` into `ColumnInfo` -/
def scanPgColumn (r : Row) : Option PgColumn :=
  if labels [c!"column_name", c!"is_pk", c!"table_name"] r then
    match intoString (field c!"column_name" r), intoBool (field c!"is_pk" r), intoString (field c!"table_name" r) with
    | some c, some p, some t => some ⟨c, p, t⟩
    | _, _, _ => none
  else none

/-- `Select` into `queryIndexInfo` (`/repo/infra/postgres/index_info.go:34-38`) and `toIndexInfo` (40-47) -/
def scanPgIndex (r : Row) : Option (Str × List Str) :=
  if labels [c!"index_name", c!"table_name", c!"column_names"] r then
    match intoString (field c!"index_name" r), intoString (field c!"table_name" r),
      intoStrings (field c!"column_names" r) with
    | some _, some t, some l => some (t, l)
    | _, _, _ => none
  else none

/-- `Select` into `ColumnInfo` of MySQL (`/repo/infra/mysql/column_info.go:16-20`) -/
def scanMyColumn (r : Row) : Option Schemas.MysqlColumn :=
  if labels [c!"column_name", c!"column_key", c!"table_name"] r then
    match intoString (field c!"column_name" r), intoString (field c!"column_key" r),
      intoString (field c!"table_name" r) with
    | some c, some k, some t => some { columnName := c, columnKey := k, tableName := t }
    | _, _, _ => none
  else none

/-- `Select` into `flatIndexInfo` (`/repo/infra/mysql/index_info.go:22-26`) -/
def scanMyIndex (r : Row) : Option Infra.FlatRow :=
  if labels [c!"table_name", c!"index_name", c!"column_name"] r then
    match intoString (field c!"table_name" r), intoString (field c!"index_name" r),
      intoString (field c!"column_name" r) with
    | some t, some i, some c => some ⟨t, i, c⟩
    | _, _, _ => none
  else none

/-- `Select` into a slice -/
def scanAll {A : Type} (scan : Row → Option A) : List Row → Option (List A)
  | [] => some []
  | r :: l => match scan r, scanAll scan l with
    | some a, some as => some (a :: as)
    | _, _ => none

/-- what `GetTableColumns` and `GetIndexes` have in common; `ask` sends a text with its arguments -/
def fetch {A E : Type} (bind : Str → Str) (scan : Row → Option A) (ask : Str → List Str → Except E (List Row))
    (query name : Str) (names : List Str) : Except (Err E) (List A) :=
  match sqlxIn query name names with
  | .error e => .error e
  | .ok (q, args) => match ask (bind q) args with
    | .error e => .error (.db e)
    | .ok rows => match scanAll scan rows with
      | none => .error .scan
      | some l => .ok l

/-- `/repo/infra/postgres/db.go:51-65` `GetTableColumns` -/
def pgGetTableColumns {E : Type} (ask : Str → List Str → Except E (List Row)) (schema : Str) (names : List Str) :
    Except (Err E) (List PgColumn) :=
  fetch (rebind 0) scanPgColumn ask pgColumns.text schema names

/-- `/repo/infra/postgres/db.go:67-81` `GetIndexes` -/
def pgGetIndexes {E : Type} (ask : Str → List Str → Except E (List Row)) (schema : Str) (names : List Str) :
    Except (Err E) (List (Str × List Str)) :=
  fetch (rebind 0) scanPgIndex ask pgIndexes.text schema names

/-- `/repo/infra/mysql/db.go:61-74` `GetTableColumns` -/
def myGetTableColumns {E : Type} (ask : Str → List Str → Except E (List Row)) (dbName : Str) (names : List Str) :
    Except (Err E) (List Schemas.MysqlColumn) :=
  fetch id scanMyColumn ask myColumns.text dbName names

/-- `/repo/infra/mysql/db.go:76-89` `GetIndexes`, before `toIndexInfo` -/
def myGetIndexes {E : Type} (ask : Str → List Str → Except E (List Row)) (dbName : Str) (names : List Str) :
    Except (Err E) (List Infra.FlatRow) :=
  fetch id scanMyIndex ask myIndexes.text dbName names

/-! ## Specification -/

/-- The server does what the statements mean. -/
def Faithful {E : Type} (le : Val → Val → Prop) (db : Db) (ask : Str → List Str → Except E (List Row)) : Prop :=
  ∀ text args out, ask text args = .ok out → ∀ s, Query.read text = some s → Answers le db (args.map .text) s out

/-- PostgreSQL's catalogue as tables -/
def pgDb (cat : Cmd.Catalogue.Catalogue) (keyword : Str → Bool) (expr : Nat → Nat → Str) : Db where
  rows t :=
    if t = c!"pg_class" then cat.classes.map fun c =>
      [(c!"oid", .int c.oid), (c!"relname", .text c.name), (c!"relnamespace", .int c.ns), (c!"relkind", .text [c.kind])]
    else if t = c!"pg_attribute" then cat.attributes.map fun a =>
      [(c!"attrelid", .int a.rel), (c!"attname", .text a.name), (c!"attnum", .int a.num),
        (c!"attisdropped", .bool a.dropped)]
    else if t = c!"pg_namespace" then cat.namespaces.map fun s => [(c!"oid", .int s.oid), (c!"nspname", .text s.name)]
    else if t = c!"pg_index" then cat.indexes.map fun i =>
      [(c!"indexrelid", .int i.idx), (c!"indrelid", .int i.rel), (c!"indisprimary", .bool i.primary),
        (c!"indkey", .vec i.keys), (c!"indnkeyatts", .int i.nkey), (c!"indisvalid", .bool i.valid)]
    else []
  indexdef o p := match cat.indexes.find? fun i => decide ((i.idx : Int) = o) with
    | none => []
    | some i => match i.keys[(p - 1).toNat]? with
      | none => []
      | some num => Cmd.Catalogue.indexDef cat keyword expr i (p - 1).toNat num

/-- a text that may be NULL -/
def orNull : Option Str → Val
  | none => .null
  | some s => .text s

/-- the two tables of MySQL's `information_schema`; `ORDINAL_POSITION` is left out -/
def myDb (cat : Cmd.MyCatalogue.Catalogue) : Db where
  rows t :=
    if t = c!"information_schema.columns" then cat.cols.map fun c =>
      [(c!"table_schema", .text c.schema), (c!"table_name", .text c.table), (c!"column_name", .text c.name),
        (c!"column_key", .text c.key)]
    else if t = c!"information_schema.statistics" then cat.stats.map fun s =>
      [(c!"table_schema", .text s.schema), (c!"table_name", .text s.table), (c!"index_name", .text s.index),
        (c!"seq_in_index", .int s.seq), (c!"column_name", orNull s.column)]
    else []
  indexdef _ _ := []

/-! ## Reading the texts -/

theorem rebind_plain (j : Nat) (a b : Str) (h : '?' ∉ a) : rebind j (a ++ b) = a ++ rebind j b := by
  induction a with
  | nil => rfl
  | cons c a ih =>
    have hc : c ≠ '?' := fun e => h (by simp [e])
    rw [List.cons_append, rebind, if_neg hc, ih (fun e => h (by simp [e]))]
    rfl

theorem expand_plain {E : Type} (as : List Arg) (a b : Str) (h : '?' ∉ a) :
    expand (E := E) as (a ++ b) = match expand (E := E) as b with
      | .error e => .error e
      | .ok (q, l) => .ok (a ++ q, l) := by
  induction a with
  | nil => rw [List.nil_append]; rcases expand (E := E) as b with e | ⟨q, l⟩ <;> rfl
  | cons c a ih =>
    have hc : c ≠ '?' := fun e => h (by simp [e])
    rw [List.cons_append]
    have e : expand (E := E) as (c :: (a ++ b)) = match expand (E := E) as (a ++ b) with
      | .error e => .error e
      | .ok (q, l) => .ok (c :: q, l) := by
      cases as <;> simp only [expand, if_neg hc]
    rw [e, ih (fun e => h (by simp [e]))]
    rcases expand (E := E) as b with e | ⟨q, l⟩ <;> rfl

/-- what `sqlx.In` makes of a query -/
theorem sqlxIn_text {E : Type} (t : Template) (ht : t.Good) (name : Str) (names : List Str) (hne : names ≠ []) :
    sqlxIn (E := E) t.text name names =
      .ok (t.pre ++ '?' :: (t.mid ++ '?' :: (marks (names.length - 1) ++ t.post)), name :: names) := by
  have hp : expand (E := E) [] t.post = .ok (t.post, []) := by
    have := expand_plain (E := E) [] t.post [] ht.post
    simpa [expand] using this
  rw [sqlxIn, if_neg hne, Template.text, expand_plain _ _ _ ht.pre]
  simp only [expand, if_true]
  rw [expand_plain _ _ _ ht.mid]
  simp only [expand, if_true, hp, List.append_nil]

/-- placeholders with these numbers, as tokens of a text with `?` -/
def marksTok : Nat → List Tok
  | 0 => []
  | n + 1 => .sym ',' :: .sym '?' :: marksTok n

theorem lex_marks (rest : Str) : ∀ n, lexGo '\'' .out (marks n ++ rest) =
    (lexGo '\'' .out rest).map (marksTok n ++ ·)
  | 0 => by simp [marks, marksTok]
  | n + 1 => by
    have ih := lex_marks rest n
    rw [marks, List.cons_append, List.cons_append, List.cons_append,
      lexGo_out_sym '\'' ',' _ (by decide) (by decide) (by decide), lexGo_out_space _ _ (by decide),
      lexGo_out_sym '\'' '?' _ (by decide) (by decide) (by decide), ih]
    cases lexGo '\'' .out rest <;> simp [marksTok]

/-- the text of `marks` after `Rebind` -/
def dollars : Nat → Nat → Str
  | _, 0 => []
  | j, n + 1 => ',' :: ' ' :: '$' :: (dec (j + 1) ++ dollars (j + 1) n)

theorem rebind_marks (rest : Str) : ∀ n j, rebind j (marks n ++ rest) = dollars j n ++ rebind (j + n) rest
  | 0, j => by simp [marks, dollars]
  | n + 1, j => by
    have ih := rebind_marks rest n (j + 1)
    simp only [marks, List.cons_append, rebind, dollars]
    rw [if_neg (by decide), if_neg (by decide), if_pos trivial, ih]
    simp [Nat.add_assoc, Nat.add_comm 1 n]

def dollarsTok : Nat → Nat → List Tok
  | _, 0 => []
  | j, n + 1 => .sym ',' :: .sym '$' :: .word (dec (j + 1)) :: dollarsTok (j + 1) n

/-- a number followed by something else -/
theorem lex_number (n : Nat) (c : Char) (rest : Str) (hc : Regex.isWord c = false) :
    lexGo '\'' .out (dec n ++ c :: rest) = (lexGo '\'' .out (c :: rest)).map (.word (dec n) :: ·) := by
  have hw : ∀ c ∈ dec n, Regex.isWord c = true := fun c hc => isWord_of_digit (dec_digits n c hc)
  have hne := dec_ne_nil n
  generalize dec n = w at hw hne
  cases w with
  | nil => exact absurd rfl hne
  | cons d w =>
    have hd := hw d (by simp)
    have hdq : d ≠ '\'' := fun e => by rw [e] at hd; exact absurd hd (by decide)
    have hsp : ¬(d = ' ' ∨ d = '\n' ∨ d = '\t') := by
      rintro (e | e | e) <;> (rw [e] at hd; exact absurd hd (by decide))
    have h1 : lexGo '\'' .out (d :: (w ++ c :: rest)) = lexGo '\'' (.word [d]) (w ++ c :: rest) := by
      simp only [lexGo, start, hdq, if_false, hsp, hd, if_true, List.nil_append]
      cases lexGo '\'' (.word [d]) (w ++ c :: rest) <;> rfl
    rw [List.cons_append, h1, lexGo_word '\'' w (c :: rest) [d] (fun x hx => hw x (by simp [hx]))]
    simp only [lexGo, hc, Bool.false_eq_true, if_false, List.cons_append, List.nil_append]
    cases lexGo '\'' (start '\'' c).2 rest <;> simp

theorem lex_dollars (rest : Str) : ∀ n j, lexGo '\'' .out (dollars j n ++ ')' :: rest) =
    (lexGo '\'' .out (')' :: rest)).map (dollarsTok j n ++ ·)
  | 0, j => by simp [dollars, dollarsTok]
  | n + 1, j => by
    have ih := lex_dollars rest n (j + 1)
    have hnum : lexGo '\'' .out (dec (j + 1) ++ (dollars (j + 1) n ++ ')' :: rest)) =
        (lexGo '\'' .out (dollars (j + 1) n ++ ')' :: rest)).map (.word (dec (j + 1)) :: ·) := by
      cases n with
      | zero => exact lex_number (j + 1) ')' rest (by decide)
      | succ n => exact lex_number (j + 1) ',' _ (by decide)
    simp only [dollars, List.cons_append, List.append_assoc]
    rw [lexGo_out_sym '\'' ',' _ (by decide) (by decide) (by decide), lexGo_out_space _ _ (by decide),
      lexGo_out_sym '\'' '$' _ (by decide) (by decide) (by decide), hnum, ih]
    cases lexGo '\'' .out (')' :: rest) <;> simp [dollarsTok]

theorem value_append (a b : Str) : value (a ++ b) = b.foldl (fun n d => 10 * n + (d.toNat - 48)) (value a) := by
  simp [value, List.foldl_append]

theorem value_dec (n : Nat) : value (dec n) = n := by
  induction n using Nat.strongRecOn with
  | ind n ih =>
    have hd : ∀ m, m < 10 → (digitChar m).toNat - 48 = m := by
      intro m hm
      match m, hm with
      | 0, _ => decide
      | 1, _ => decide
      | 2, _ => decide
      | 3, _ => decide
      | 4, _ => decide
      | 5, _ => decide
      | 6, _ => decide
      | 7, _ => decide
      | 8, _ => decide
      | 9, _ => decide
    have hm : digitChar n = digitChar (n % 10) := by simp [digitChar]
    by_cases h : n < 10
    · rw [dec_lt h]
      simp only [value, List.foldl_cons, List.foldl_nil, hd n h]
      omega
    · rw [dec_ge h, value_append, ih (n / 10) (by omega)]
      simp only [List.foldl_cons, List.foldl_nil, hm, hd (n % 10) (by omega)]
      omega

/-! ### Tokens -/

/-- neither placeholder among the tokens -/
def NoMark (l : List Tok) : Prop := Tok.sym '?' ∉ l ∧ Tok.sym '$' ∉ l

theorem tokens_append (b : List Tok) (n : Nat) : ∀ a : List Tok, NoMark a →
    tokens n false (a ++ b) = tokens 0 false a ++ tokens n false b
  | [], _ => rfl
  | .word w :: a, h => by
    have ih := tokens_append b n a ⟨fun e => h.1 (by simp [e]), fun e => h.2 (by simp [e])⟩
    simp [tokens, ih]
  | .quoted w :: a, h => by
    have ih := tokens_append b n a ⟨fun e => h.1 (by simp [e]), fun e => h.2 (by simp [e])⟩
    simp [tokens, ih]
  | .sym c :: a, h => by
    have ih := tokens_append b n a ⟨fun e => h.1 (by simp [e]), fun e => h.2 (by simp [e])⟩
    have h1 : c ≠ '?' := fun e => h.1 (by simp [e])
    have h2 : c ≠ '$' := fun e => h.2 (by simp [e])
    simp [tokens, ih, h1, h2]

/-- the placeholders from `j` on -/
def params : Nat → Nat → List T
  | _, 0 => []
  | j, n + 1 => .param j :: params (j + 1) n

/-- a list with a comma before every element -/
def each : List T → List T
  | [] => []
  | t :: l => .sym ',' :: t :: each l

theorem commas_cons (t : T) (l : List T) : commas (t :: l) = t :: each l := by
  induction l generalizing t with
  | nil => rfl
  | cons u l ih => rw [commas, ih u, each]; simp

theorem tokens_marks (b : List Tok) : ∀ n j,
    tokens j false (marksTok n ++ b) = each (params j n) ++ tokens (j + n) false b
  | 0, j => by simp [marksTok, params, each]
  | n + 1, j => by
    have ih := tokens_marks b n (j + 1)
    simp only [marksTok, List.cons_append, tokens, params, each]
    rw [if_neg (by decide), if_neg (by decide), if_pos trivial, ih]
    simp [Nat.add_assoc, Nat.add_comm 1 n]

theorem tokens_dollars (b : List Tok) (k : Nat) : ∀ n j,
    tokens k false (dollarsTok j n ++ b) = each (params j n) ++ tokens k false b
  | 0, j => by simp [dollarsTok, params, each]
  | n + 1, j => by
    have ih := tokens_dollars b k n (j + 1)
    simp only [dollarsTok, List.cons_append, tokens, params, each]
    rw [if_neg (by decide), if_neg (by decide), if_neg (by decide), if_pos trivial, if_pos trivial, ih, value_dec]
    simp

theorem tokens_literals (b : List Tok) (k : Nat) : ∀ l : List Str, l ≠ [] →
    tokens k false (literals l ++ b) = commas (l.map .lit) ++ tokens k false b
  | [], h => absurd rfl h
  | [t], _ => by simp [literals, commas, tokens]
  | t :: u :: l, _ => by
    have ih := tokens_literals b k (u :: l) (by simp)
    simp only [literals, List.cons_append, tokens, List.map_cons, commas] at ih ⊢
    rw [if_neg (by decide), if_neg (by decide), ih]

/-! ### The three ways to fill a query -/

/-- a query with its placeholders filled, as tokens -/
def filled (t : Template) (x : T) (ys : List T) : List T :=
  tokens 0 false (lexPart '\'' .out t.pre).1 ++ x :: (tokens 0 false (lexPart '\'' .out t.mid).1 ++
    (commas ys ++ tokens 0 false ((lexGo '\'' .out t.post).getD [])))

/-- what the four templates have in common -/
structure Clean (t : Template) : Prop extends t.Good where
  preMark : NoMark (lexPart '\'' .out t.pre).1
  midMark : NoMark (lexPart '\'' .out t.mid).1
  postLex : (lexGo '\'' .out t.post).isSome = true
  postMark : NoMark ((lexGo '\'' .out t.post).getD [])

theorem lex_filled (t : Template) (ht : Clean t) (s l : Str) (S L : List Tok)
    (hs : ∀ rest, lexGo '\'' .out (s ++ ' ' :: rest) = (lexGo '\'' .out (' ' :: rest)).map (S ++ ·))
    (hl : ∀ rest, lexGo '\'' .out (l ++ ')' :: rest) = (lexGo '\'' .out (')' :: rest)).map (L ++ ·)) :
    lex '\'' (t.pre ++ (s ++ (t.mid ++ (l ++ t.post)))) =
      some ((lexPart '\'' .out t.pre).1 ++ (S ++ ((lexPart '\'' .out t.mid).1 ++
        (L ++ (lexGo '\'' .out t.post).getD [])))) := by
  obtain ⟨r, hr⟩ := ht.midStart
  obtain ⟨r', hr'⟩ := ht.postStart
  have h1 : lexGo '\'' .out (s ++ (t.mid ++ (l ++ t.post))) =
      (lexGo '\'' .out (t.mid ++ (l ++ t.post))).map (S ++ ·) := by
    rw [hr, List.cons_append]; exact hs _
  have h2 : lexGo '\'' .out (l ++ t.post) = (lexGo '\'' .out t.post).map (L ++ ·) := by
    rw [hr']; exact hl _
  have hp := ht.postLex
  rw [lex, lexGo_append, ht.preOut, h1, lexGo_append, ht.midOut, h2]
  cases h : lexGo '\'' .out t.post with
  | none => rw [h] at hp; cases hp
  | some p => rfl

theorem read_eq (text : Str) (l : List Tok) (h : lex '\'' text = some l) :
    Query.read text = (group [] [] (tokens 0 false l)).bind statement := by
  unfold Query.read
  rw [h]
  simp only
  generalize group [] [] (tokens 0 false l) = g
  cases g <;> rfl

theorem lex_question (rest : Str) : lexGo '\'' .out (['?'] ++ rest) = (lexGo '\'' .out rest).map ([.sym '?'] ++ ·) :=
  lexGo_out_sym '\'' '?' _ (by decide) (by decide) (by decide)

/-- MySQL: the text keeps its question marks -/
theorem read_mysql {E : Type} (t : Template) (ht : Clean t) (name : Str) (names : List Str) (hne : names ≠ []) :
    ∃ q, sqlxIn (E := E) t.text name names = .ok (q, name :: names) ∧
      Query.read q = (group [] [] (filled t (.param 0) (params 1 names.length))).bind statement := by
  refine ⟨_, sqlxIn_text t ht.toGood name names hne, ?_⟩
  have hlen : names.length = names.length - 1 + 1 := by
    cases names with
    | nil => exact absurd rfl hne
    | cons a l => simp
  have e := lex_filled t ht ['?'] ('?' :: marks (names.length - 1)) [.sym '?']
    (.sym '?' :: marksTok (names.length - 1)) (fun rest => lex_question _) (fun rest => by
      rw [List.cons_append, lexGo_out_sym '\'' '?' _ (by decide) (by decide) (by decide), lex_marks]
      cases lexGo '\'' .out (')' :: rest) <;> simp)
  simp only [List.cons_append, List.nil_append] at e
  rw [read_eq _ _ e, filled]
  congr 2
  rw [tokens_append _ _ _ ht.preMark]
  simp only [tokens, if_true]
  rw [tokens_append _ _ _ ht.midMark]
  simp only [tokens, if_true]
  have hp : ∀ n, tokens n false ((lexGo '\'' .out t.post).getD []) =
      tokens 0 false ((lexGo '\'' .out t.post).getD []) := by
    intro n
    have := tokens_append [] n _ ht.postMark
    simpa [tokens] using this
  obtain ⟨k, hk⟩ : ∃ k, names.length = k + 1 := ⟨_, hlen⟩
  rw [tokens_marks, hk, params, commas_cons, hp]
  simp

/-- PostgreSQL: the question marks are numbered -/
theorem read_postgres {E : Type} (t : Template) (ht : Clean t) (name : Str) (names : List Str) (hne : names ≠ []) :
    ∃ q, sqlxIn (E := E) t.text name names = .ok (q, name :: names) ∧
      Query.read (rebind 0 q) = (group [] [] (filled t (.param 0) (params 1 names.length))).bind statement := by
  refine ⟨_, sqlxIn_text t ht.toGood name names hne, ?_⟩
  have hlen : names.length = names.length - 1 + 1 := by
    cases names with
    | nil => exact absurd rfl hne
    | cons a l => simp
  have hpost : ∀ j, rebind j t.post = t.post := by
    intro j
    have := rebind_plain j t.post [] ht.post
    simpa [rebind] using this
  have hb : rebind 0 (t.pre ++ '?' :: (t.mid ++ '?' :: (marks (names.length - 1) ++ t.post))) =
      t.pre ++ (('$' :: dec 1) ++ (t.mid ++ (('$' :: (dec 2 ++ dollars 2 (names.length - 1))) ++ t.post))) := by
    rw [rebind_plain _ _ _ ht.pre, rebind, if_pos rfl, rebind_plain _ _ _ ht.mid, rebind, if_pos rfl, rebind_marks,
      hpost]
    simp
  have e := lex_filled t ht ('$' :: dec 1) ('$' :: (dec 2 ++ dollars 2 (names.length - 1))) [.sym '$', .word (dec 1)]
    (.sym '$' :: .word (dec 2) :: dollarsTok 2 (names.length - 1)) (fun rest => by
      rw [List.cons_append, lexGo_out_sym '\'' '$' _ (by decide) (by decide) (by decide),
        lex_number _ _ _ (by decide)]
      cases lexGo '\'' .out (' ' :: rest) <;> simp) (fun rest => by
      have hnum : lexGo '\'' .out (dec 2 ++ (dollars 2 (names.length - 1) ++ ')' :: rest)) =
          (lexGo '\'' .out (dollars 2 (names.length - 1) ++ ')' :: rest)).map (.word (dec 2) :: ·) := by
        cases names.length - 1 with
        | zero => exact lex_number 2 ')' rest (by decide)
        | succ n => exact lex_number 2 ',' _ (by decide)
      rw [List.cons_append, lexGo_out_sym '\'' '$' _ (by decide) (by decide) (by decide), List.append_assoc, hnum,
        lex_dollars]
      cases lexGo '\'' .out (')' :: rest) <;> simp)
  rw [hb, read_eq _ _ e, filled]
  congr 2
  rw [tokens_append _ _ _ ht.preMark]
  simp only [List.cons_append, List.nil_append, tokens]
  rw [if_neg (by decide), if_pos trivial, if_pos trivial, tokens_append _ _ _ ht.midMark]
  simp only [tokens, if_true]
  rw [if_neg (by decide), tokens_dollars, value_dec, value_dec]
  obtain ⟨k, hk⟩ : ∃ k, names.length = k + 1 := ⟨_, hlen⟩
  rw [hk, params, commas_cons]
  simp

/-- Hasura: the names stand in the text -/
theorem read_hasura (t : Template) (ht : Clean t) (name : Str) (names : List Str) (hne : names ≠ []) (q : Str)
    (h : buildFetchQuery t name names = .ok q) :
    Query.read q = (group [] [] (filled t (.lit name) (names.map .lit))).bind statement := by
  unfold buildFetchQuery at h
  split at h
  · next hw =>
    have hname := (Index.wordOnly_iff name).mp hw
    split at h
    · cases h
    · next hc =>
      have hwords := (checkTables_ok names).mp hc
      simp only [Except.ok.injEq] at h
      subst h
      have e1 : replaceFirst ('\'' :: name ++ ['\'']) t.text =
          (t.pre ++ (('\'' :: name ++ ['\'']) ++ t.mid)) ++ '?' :: t.post := by
        rw [Template.text, replaceFirst_append _ _ _ ht.pre]
        simp
      have e2 : replaceFirst (Index.joinWith [','] (names.map fun t => '\'' :: t ++ ['\'']))
          ((t.pre ++ (('\'' :: name ++ ['\'']) ++ t.mid)) ++ '?' :: t.post) =
          t.pre ++ (('\'' :: name ++ ['\'']) ++ (t.mid ++
            (Index.joinWith [','] (names.map fun t => '\'' :: t ++ ['\'']) ++ t.post))) := by
        rw [replaceFirst_append]
        · simp
        · simp only [List.mem_append, List.mem_cons, not_or, List.not_mem_nil]
          exact ⟨ht.pre, ⟨⟨by decide, word_not name hname _ (by decide)⟩, by decide, by simp⟩, ht.mid⟩
      have e := lex_filled t ht ('\'' :: name ++ ['\'']) (Index.joinWith [','] (names.map fun t => '\'' :: t ++ ['\'']))
        [.quoted name] (literals names) (fun rest => by
          have := lexGo_out_quoted '\'' name ' ' rest (word_not name hname _ (by decide)) (by decide)
          simpa using this) (fun rest => lex_literals rest names hwords)
      rw [e1, e2, read_eq _ _ e, filled]
      congr 2
      rw [tokens_append _ _ _ ht.preMark]
      simp only [List.cons_append, List.nil_append, tokens]
      rw [tokens_append _ _ _ ht.midMark, tokens_literals _ _ _ hne]
  · cases h

/-! ### The statements -/

theorem noMark_of (l : List Tok) (h : l.all (fun t => decide (t ≠ .sym '?') && decide (t ≠ .sym '$')) = true) :
    NoMark l := by
  rw [List.all_eq_true] at h
  constructor <;> intro hm <;> exact absurd (h _ hm) (by decide)

/-- a check of the rest of `Clean` -/
def cleanly (t : Template) : Bool :=
  (lexPart '\'' .out t.pre).1.all (fun t => decide (t ≠ .sym '?') && decide (t ≠ .sym '$')) &&
  (lexPart '\'' .out t.mid).1.all (fun t => decide (t ≠ .sym '?') && decide (t ≠ .sym '$')) &&
  (lexGo '\'' .out t.post).isSome &&
  ((lexGo '\'' .out t.post).getD []).all (fun t => decide (t ≠ .sym '?') && decide (t ≠ .sym '$'))

theorem clean_of (t : Template) (h : t.Good) (hc : cleanly t = true) : Clean t := by
  simp only [cleanly, Bool.and_eq_true] at hc
  exact ⟨h, noMark_of _ hc.1.1.1, noMark_of _ hc.1.1.2, hc.1.2, noMark_of _ hc.2⟩

theorem pgColumns_good : Template.Good pgColumns :=
  ⟨by decide +kernel, by decide +kernel, by decide +kernel, by decide +kernel, by decide +kernel,
    ⟨pgColumns.mid.drop 1, by decide +kernel⟩, ⟨pgColumns.post.drop 1, by decide +kernel⟩⟩

theorem pgColumns_clean : Clean pgColumns :=
  clean_of _ pgColumns_good (by decide +kernel)

theorem pgIndexes_good : Template.Good pgIndexes :=
  ⟨by decide +kernel, by decide +kernel, by decide +kernel, by decide +kernel, by decide +kernel,
    ⟨pgIndexes.mid.drop 1, by decide +kernel⟩, ⟨pgIndexes.post.drop 1, by decide +kernel⟩⟩

theorem pgIndexes_clean : Clean pgIndexes :=
  clean_of _ pgIndexes_good (by decide +kernel)

theorem myColumns_good : Template.Good myColumns :=
  ⟨by decide +kernel, by decide +kernel, by decide +kernel, by decide +kernel, by decide +kernel,
    ⟨myColumns.mid.drop 1, by decide +kernel⟩, ⟨myColumns.post.drop 1, by decide +kernel⟩⟩

theorem myColumns_clean : Clean myColumns :=
  clean_of _ myColumns_good (by decide +kernel)

theorem myIndexes_good : Template.Good myIndexes :=
  ⟨by decide +kernel, by decide +kernel, by decide +kernel, by decide +kernel, by decide +kernel,
    ⟨myIndexes.mid.drop 1, by decide +kernel⟩, ⟨myIndexes.post.drop 1, by decide +kernel⟩⟩

theorem myIndexes_clean : Clean myIndexes :=
  clean_of _ myIndexes_good (by decide +kernel)

theorem hasuraColumns_clean : Clean columnFetchQuery :=
  clean_of _ column_good (by decide +kernel)

theorem hasuraIndexes_clean : Clean indexFetchQuery :=
  clean_of _ index_good (by decide +kernel)

/-- `group` up to some place -/
def part : List PT → List (List PT) → List T → List PT × List (List PT)
  | cur, st, [] => (cur, st)
  | cur, st, t :: l =>
    if t = .sym '(' then part [] (cur :: st) l
    else if t = .sym ')' then
      match st with
      | [] => part cur [] l
      | p :: st => part (p ++ [.grp cur]) st l
    else part (cur ++ [.tok t]) st l

/-- all opening parentheses are there -/
def balanced : Nat → List T → Bool
  | _, [] => true
  | n, t :: l =>
    if t = .sym '(' then balanced (n + 1) l
    else if t = .sym ')' then match n with
      | 0 => false
      | n + 1 => balanced n l
    else balanced n l

theorem group_part (b : List T) : ∀ (a : List T) (cur : List PT) (st : List (List PT)), balanced st.length a = true →
    group cur st (a ++ b) = group (part cur st a).1 (part cur st a).2 b
  | [], cur, st, _ => rfl
  | t :: a, cur, st, h => by
    rw [List.cons_append, group.eq_def, part.eq_def]
    rw [balanced.eq_def] at h
    simp only at h ⊢
    split
    · next e =>
      rw [if_pos e] at h
      exact group_part b a [] (cur :: st) h
    · next e =>
      rw [if_neg e] at h
      split
      · next e' =>
        rw [if_pos e'] at h
        cases st with
        | nil => cases h
        | cons p st => exact group_part b a _ st h
      · next e' =>
        rw [if_neg e'] at h
        exact group_part b a _ st h

/-- what is before the list of names -/
def before (t : Template) (x : T) : List T :=
  tokens 0 false (lexPart '\'' .out t.pre).1 ++ x :: tokens 0 false (lexPart '\'' .out t.mid).1

theorem group_filled (t : Template) (x : T) (ys : List T) (hb : balanced 0 (before t x) = true)
    (hy : ∀ y ∈ ys, y ≠ .sym '(' ∧ y ≠ .sym ')') :
    group [] [] (filled t x ys) =
      group ((part [] [] (before t x)).1 ++ (commas ys).map .tok) (part [] [] (before t x)).2
        (tokens 0 false ((lexGo '\'' .out t.post).getD [])) := by
  have e : filled t x ys = before t x ++ (commas ys ++ tokens 0 false ((lexGo '\'' .out t.post).getD [])) := by
    simp [filled, before]
  rw [e, group_part _ (before t x) [] [] hb, group_sep _ _ _ _ (commas_plain ys hy)]

/-- the statement of the column queries of PostgreSQL and Hasura -/
def columnStmt (schema : Ex) (names : List Ex) : Stmt where
  items := [(.col c!"pg_class" c!"relname", c!"table_name"), (.col c!"pg_attribute" c!"attname", c!"column_name"),
    (.call2 c!"coalesce" (.col c!"pg_index" c!"indisprimary") (.bool false), c!"is_pk")]
  src := ⟨c!"pg_class", c!"pg_class"⟩
  joins := [
    ⟨.inner, ⟨c!"pg_attribute", c!"pg_attribute"⟩, [.eq (.col c!"pg_attribute" c!"attrelid") (.col c!"pg_class" c!"oid")]⟩,
    ⟨.inner, ⟨c!"pg_namespace", c!"pg_namespace"⟩,
      [.eq (.col c!"pg_class" c!"relnamespace") (.col c!"pg_namespace" c!"oid")]⟩,
    ⟨.left, ⟨c!"pg_index", c!"pg_index"⟩, [.eq (.col c!"pg_class" c!"oid") (.col c!"pg_index" c!"indrelid"),
      .any (.col c!"pg_attribute" c!"attnum") (.col c!"pg_index" c!"indkey")]⟩]
  cond := [.eq (.col c!"pg_namespace" c!"nspname") schema, .oneOf (.col c!"pg_class" c!"relname") names,
    .eq (.col c!"pg_class" c!"relkind") (.lit c!"r"), .ge (.col c!"pg_attribute" c!"attnum") (.num 0)]
  keys := [.col c!"pg_class" c!"relname", .col c!"pg_attribute" c!"attnum"]

/-- the array of the index queries -/
def defs : Ex :=
  .array (.call3 c!"pg_get_indexdef" (.col c!"pg_index" c!"indexrelid") (.add (.name c!"k") (.num 1)) (.bool true))
    c!"generate_subscripts" (.col c!"pg_index" c!"indkey") (.num 1) c!"k" (.name c!"k")

/-- the statement of the index queries of PostgreSQL and Hasura -/
def indexStmt (more : List (Ex × Str)) (schema : Ex) (names : List Ex) : Stmt where
  items := more ++ [(.col c!"t" c!"relname", c!"table_name"), (defs, c!"column_names")]
  src := ⟨c!"pg_index", c!"pg_index"⟩
  joins := [
    ⟨.inner, ⟨c!"pg_class", c!"i"⟩, [.eq (.col c!"pg_index" c!"indexrelid") (.col c!"i" c!"oid")]⟩,
    ⟨.inner, ⟨c!"pg_class", c!"t"⟩, [.eq (.col c!"pg_index" c!"indrelid") (.col c!"t" c!"oid")]⟩,
    ⟨.inner, ⟨c!"pg_namespace", c!"pg_namespace"⟩, [.eq (.col c!"i" c!"relnamespace") (.col c!"pg_namespace" c!"oid")]⟩]
  cond := [.eq (.col c!"pg_namespace" c!"nspname") schema, .oneOf (.col c!"t" c!"relname") names]
  keys := [.col c!"t" c!"relname", .col c!"i" c!"relname"]

def myColumnStmt (schema : Ex) (names : List Ex) : Stmt where
  items := [(.name c!"column_name", c!"column_name"), (.name c!"column_key", c!"column_key"),
    (.name c!"table_name", c!"table_name")]
  src := ⟨c!"information_schema.columns", c!"columns"⟩
  joins := []
  cond := [.eq (.name c!"table_schema") schema, .oneOf (.name c!"table_name") names]
  keys := [.name c!"table_name", .name c!"ordinal_position"]

def myIndexStmt (schema : Ex) (names : List Ex) : Stmt where
  items := [(.name c!"table_name", c!"table_name"), (.name c!"index_name", c!"index_name"),
    (.name c!"column_name", c!"column_name")]
  src := ⟨c!"information_schema.statistics", c!"statistics"⟩
  joins := []
  cond := [.eq (.name c!"table_schema") schema, .oneOf (.name c!"table_name") names]
  keys := [.name c!"table_name", .name c!"index_name", .name c!"seq_in_index"]

/-- the expressions in a list -/
def listed (g : List PT) : List Ex := (split (isSym ',') g).map (expr deep)

theorem pgColumns_stmt (g : List PT) :
    (group ((part [] [] (before pgColumns (.param 0))).1 ++ g) (part [] [] (before pgColumns (.param 0))).2
      (tokens 0 false ((lexGo '\'' .out pgColumns.post).getD []))).bind statement =
    some (columnStmt (.param 0) (listed g)) := by
  krfl

theorem pgIndexes_stmt (g : List PT) :
    (group ((part [] [] (before pgIndexes (.param 0))).1 ++ g) (part [] [] (before pgIndexes (.param 0))).2
      (tokens 0 false ((lexGo '\'' .out pgIndexes.post).getD []))).bind statement =
    some (indexStmt [(.col c!"i" c!"relname", c!"index_name")] (.param 0) (listed g)) := by
  krfl

theorem myColumns_stmt (g : List PT) :
    (group ((part [] [] (before myColumns (.param 0))).1 ++ g) (part [] [] (before myColumns (.param 0))).2
      (tokens 0 false ((lexGo '\'' .out myColumns.post).getD []))).bind statement =
    some (myColumnStmt (.param 0) (listed g)) := by
  krfl

theorem myIndexes_stmt (g : List PT) :
    (group ((part [] [] (before myIndexes (.param 0))).1 ++ g) (part [] [] (before myIndexes (.param 0))).2
      (tokens 0 false ((lexGo '\'' .out myIndexes.post).getD []))).bind statement =
    some (myIndexStmt (.param 0) (listed g)) := by
  krfl

theorem hasuraColumns_stmt (s : Str) (g : List PT) :
    (group ((part [] [] (before columnFetchQuery (.lit s))).1 ++ g) (part [] [] (before columnFetchQuery (.lit s))).2
      (tokens 0 false ((lexGo '\'' .out columnFetchQuery.post).getD []))).bind statement =
    some (columnStmt (.lit s) (listed g)) := by
  krfl

theorem hasuraIndexes_stmt (s : Str) (g : List PT) :
    (group ((part [] [] (before indexFetchQuery (.lit s))).1 ++ g) (part [] [] (before indexFetchQuery (.lit s))).2
      (tokens 0 false ((lexGo '\'' .out indexFetchQuery.post).getD []))).bind statement =
    some (indexStmt [] (.lit s) (listed g)) := by
  krfl

theorem params_mem : ∀ (n j : Nat) (y : T), y ∈ params j n → ∃ i, y = .param i
  | 0, _, _, h => by simp [params] at h
  | n + 1, j, y, h => by
    rcases List.mem_cons.mp h with rfl | h
    · exact ⟨j, rfl⟩
    · exact params_mem n (j + 1) y h

theorem listed_params (n : Nat) : listed ((commas (params 1 (n + 1))).map .tok) =
    (params 1 (n + 1)).map fun t => expr deep [.tok t] := by
  rw [listed, split_commas]
  · simp
  · simp [params]
  · intro t ht e
    obtain ⟨i, rfl⟩ := params_mem _ _ _ ht
    cases e

theorem listed_lits (l : List Str) (hne : l ≠ []) : listed ((commas (l.map T.lit)).map .tok) = l.map Ex.lit := by
  rw [listed, split_commas]
  · rw [List.map_map, List.map_map]; rfl
  · simpa using hne
  · intro t ht e
    obtain ⟨i, -, rfl⟩ := List.mem_map.mp ht
    cases e

/-- the names as arguments -/
def places (n : Nat) : List Ex := (params 1 n).map fun t => expr deep [.tok t]

theorem length_pos {A : Type} {l : List A} (h : l ≠ []) : ∃ k, l.length = k + 1 := by
  cases l with
  | nil => exact absurd rfl h
  | cons a l => exact ⟨l.length, rfl⟩

theorem params_plain (n j : Nat) : ∀ y ∈ params j n, y ≠ .sym '(' ∧ y ≠ .sym ')' := by
  intro y hy
  obtain ⟨i, rfl⟩ := params_mem _ _ _ hy
  exact ⟨by simp, by simp⟩

theorem lits_plain (l : List Str) : ∀ y ∈ l.map T.lit, y ≠ .sym '(' ∧ y ≠ .sym ')' := by
  intro y hy
  obtain ⟨i, -, rfl⟩ := List.mem_map.mp hy
  exact ⟨by simp, by simp⟩

theorem reads_postgres {E : Type} (t : Template) (ht : Clean t) (hb : balanced 0 (before t (.param 0)) = true)
    (f : List Ex → Stmt)
    (hf : ∀ g, (group ((part [] [] (before t (.param 0))).1 ++ g) (part [] [] (before t (.param 0))).2
      (tokens 0 false ((lexGo '\'' .out t.post).getD []))).bind statement = some (f (listed g)))
    (name : Str) (names : List Str) (hne : names ≠ []) :
    ∃ q, sqlxIn (E := E) t.text name names = .ok (q, name :: names) ∧
      Query.read (rebind 0 q) = some (f (places names.length)) := by
  obtain ⟨q, h1, h2⟩ := read_postgres (E := E) t ht name names hne
  obtain ⟨k, hk⟩ := length_pos hne
  refine ⟨q, h1, ?_⟩
  rw [h2, group_filled _ _ _ hb (params_plain _ _), hf, hk, listed_params]
  rfl

theorem reads_mysql {E : Type} (t : Template) (ht : Clean t) (hb : balanced 0 (before t (.param 0)) = true)
    (f : List Ex → Stmt)
    (hf : ∀ g, (group ((part [] [] (before t (.param 0))).1 ++ g) (part [] [] (before t (.param 0))).2
      (tokens 0 false ((lexGo '\'' .out t.post).getD []))).bind statement = some (f (listed g)))
    (name : Str) (names : List Str) (hne : names ≠ []) :
    ∃ q, sqlxIn (E := E) t.text name names = .ok (q, name :: names) ∧
      Query.read q = some (f (places names.length)) := by
  obtain ⟨q, h1, h2⟩ := read_mysql (E := E) t ht name names hne
  obtain ⟨k, hk⟩ := length_pos hne
  refine ⟨q, h1, ?_⟩
  rw [h2, group_filled _ _ _ hb (params_plain _ _), hf, hk, listed_params]
  rfl

theorem reads_hasura (t : Template) (ht : Clean t) (name : Str)
    (hb : balanced 0 (before t (.lit name)) = true) (f : List Ex → Stmt)
    (hf : ∀ g, (group ((part [] [] (before t (.lit name))).1 ++ g) (part [] [] (before t (.lit name))).2
      (tokens 0 false ((lexGo '\'' .out t.post).getD []))).bind statement = some (f (listed g)))
    (names : List Str) (hne : names ≠ []) (q : Str) (h : buildFetchQuery t name names = .ok q) :
    Query.read q = some (f (names.map .lit)) := by
  rw [read_hasura t ht name names hne q h, group_filled _ _ _ hb (lits_plain _), hf, listed_lits _ hne]

/-! ## Meaning of the statements -/

/-- the arguments stand for the name and the names -/
theorem places_eval (db : Db) (name : Str) (names : List Str) (env : List (Str × Row)) (v : Val) :
    ((places names.length).any fun b => same v (b.eval db ((name :: names).map .text) env)) =
      names.any fun n => same v (.text n) := by
  have key : ∀ (l pre : List Str), ((params (pre.length + 1) l.length).map fun t => expr deep [.tok t]).any
      (fun b => same v (b.eval db ((name :: (pre ++ l)).map .text) env)) = l.any fun n => same v (.text n) := by
    intro l
    induction l with
    | nil => intro pre; rfl
    | cons a l ih =>
      intro pre
      have h1 := ih (pre ++ [a])
      simp only [List.length_append, List.length_cons, List.length_nil, List.append_assoc, List.cons_append,
        List.nil_append, Nat.zero_add, List.map_cons] at h1
      simp only [List.length_cons, params, List.map_cons, List.any_cons]
      rw [h1]
      congr 1
      show same v ((Val.text name :: (pre ++ a :: l).map Val.text).getD (pre.length + 1) .null) = same v (.text a)
      simp
  exact key names []

theorem lits_eval (db : Db) (args : List Val) (names : List Str) (env : List (Str × Row)) (v : Val) :
    ((names.map Ex.lit).any fun b => same v (b.eval db args env)) = names.any fun n => same v (.text n) := by
  rw [List.any_map]
  rfl

theorem any_same (s : Str) (names : List Str) : (names.any fun n => same (.text s) (.text n)) = decide (s ∈ names) := by
  induction names with
  | nil => rfl
  | cons a l ih =>
    rw [List.any_cons, ih]
    simp only [same, List.mem_cons, Bool.decide_or]

/-- the names are what these expressions stand for -/
def Stands (db : Db) (args : List Val) (schema : Ex) (es : List Ex) (name : Str) (names : List Str) : Prop :=
  (∀ env, schema.eval db args env = .text name) ∧
  ∀ env s, (es.any fun b => same (.text s) (b.eval db args env)) = decide (s ∈ names)

theorem stands_args (db : Db) (name : Str) (names : List Str) :
    Stands db ((name :: names).map .text) (.param 0) (places names.length) name names :=
  ⟨fun _ => rfl, fun env s => by rw [places_eval, any_same]⟩

theorem stands_lits (db : Db) (name : Str) (names : List Str) :
    Stands db [] (.lit name) (names.map .lit) name names :=
  ⟨fun _ => rfl, fun env s => by rw [lits_eval, any_same]⟩

theorem filter_map_flat {A B : Type} (p : A → Bool) (f : A → B) (l : List A) :
    (l.filter p).map f = l.flatMap fun a => if p a then [f a] else [] := by
  induction l with
  | nil => rfl
  | cons a l ih =>
    rw [List.filter_cons, List.flatMap_cons]
    split <;> simp [ih]

theorem rows_inner (db : Db) (args : List Val) (env : List (Str × Row)) (s : Src) (c : List Cmp) :
    Join.rows db args env ⟨.inner, s, c⟩ =
      ((db.rows s.table).filter fun r => holds db args (env ++ [(s.name, r)]) c).map fun r => env ++ [(s.name, r)] := by
  simp only [Join.rows, List.filter_map]
  rfl

theorem rows_left {A : Type} (db : Db) (args : List Val) (env : List (Str × Row)) (s : Src) (c : List Cmp)
    (l : List A) (f : A → Row) (h : db.rows s.table = l.map f) :
    Join.rows db args env ⟨.left, s, c⟩ =
      (Cmd.Catalogue.leftJoin (l.filter fun a => holds db args (env ++ [(s.name, f a)]) c)).map fun a =>
        env ++ [(s.name, (a.map f).getD [])] := by
  simp only [Join.rows, h, List.map_map, List.filter_map]
  have e : (l.filter ((fun env => holds db args env c) ∘ (fun r => env ++ [(s.name, r)]) ∘ f)) =
      l.filter fun a => holds db args (env ++ [(s.name, f a)]) c := rfl
  rw [e]
  cases l.filter fun a => holds db args (env ++ [(s.name, f a)]) c with
  | nil => rfl
  | cons a l => simp [Cmd.Catalogue.leftJoin]

theorem decide_cast (a b : Nat) : decide ((a : Int) = (b : Int)) = decide (a = b) := by
  by_cases h : a = b
  · simp [h]
  · rw [decide_eq_false h, decide_eq_false (by omega)]

section pg
variable (cat : Cmd.Catalogue.Catalogue) (keyword : Str → Bool) (expr : Nat → Nat → Str)

def classRow (c : Cmd.Catalogue.Class) : Row :=
  [(c!"oid", .int c.oid), (c!"relname", .text c.name), (c!"relnamespace", .int c.ns), (c!"relkind", .text [c.kind])]

def attributeRow (a : Cmd.Catalogue.Attribute) : Row :=
  [(c!"attrelid", .int a.rel), (c!"attname", .text a.name), (c!"attnum", .int a.num),
    (c!"attisdropped", .bool a.dropped)]

def namespaceRow (s : Cmd.Catalogue.Namespace) : Row := [(c!"oid", .int s.oid), (c!"nspname", .text s.name)]

def ixRow (i : Cmd.Catalogue.Ix) : Row :=
  [(c!"indexrelid", .int i.idx), (c!"indrelid", .int i.rel), (c!"indisprimary", .bool i.primary),
    (c!"indkey", .vec i.keys), (c!"indnkeyatts", .int i.nkey), (c!"indisvalid", .bool i.valid)]

theorem db_class : (pgDb cat keyword expr).rows c!"pg_class" = cat.classes.map classRow := rfl
theorem db_attribute : (pgDb cat keyword expr).rows c!"pg_attribute" = cat.attributes.map attributeRow := rfl
theorem db_namespace : (pgDb cat keyword expr).rows c!"pg_namespace" = cat.namespaces.map namespaceRow := rfl
theorem db_index : (pgDb cat keyword expr).rows c!"pg_index" = cat.indexes.map ixRow := rfl

/-- one row of the column query -/
def columnRow (p : Str × Str × Bool) : Row :=
  [(c!"table_name", .text p.1), (c!"column_name", .text p.2.1), (c!"is_pk", .bool p.2.2)]

theorem column_rows (args : List Val) (schema : Ex) (es : List Ex) (name : Str) (names : List Str)
    (h : Stands (pgDb cat keyword expr) args schema es name names) :
    ((columnStmt schema es).rows (pgDb cat keyword expr) args).map Prod.fst =
      (Cmd.Catalogue.columnRows cat name names).map columnRow := by
  set db := pgDb cat keyword expr with hdb
  rw [Stmt.rows, List.map_map, filter_map_flat, Cmd.Catalogue.columnRows, List.map_flatMap]
  simp only [columnStmt, joinAll, List.flatMap_assoc, List.flatMap_map, db_class, hdb]
  simp only [← hdb]
  refine List.flatMap_congr fun c _ => ?_
  have h1 : Join.rows db args [(c!"pg_class", classRow c)] ⟨.inner, ⟨c!"pg_attribute", c!"pg_attribute"⟩,
      [.eq (.col c!"pg_attribute" c!"attrelid") (.col c!"pg_class" c!"oid")]⟩ =
      (cat.attributes.filter fun a => decide (a.rel = c.oid)).map fun a =>
        [(c!"pg_class", classRow c), (c!"pg_attribute", attributeRow a)] := by
    rw [rows_inner, hdb, db_attribute, List.filter_map, List.map_map]
    congr 1
    refine List.filter_congr fun a _ => ?_
    show (decide ((a.rel : Int) = (c.oid : Int)) && true) = _
    rw [Bool.and_true, decide_cast]
  rw [h1, List.flatMap_map, List.map_flatMap]
  refine List.flatMap_congr fun a _ => ?_
  have h2 : Join.rows db args [(c!"pg_class", classRow c), (c!"pg_attribute", attributeRow a)]
      ⟨.inner, ⟨c!"pg_namespace", c!"pg_namespace"⟩,
        [.eq (.col c!"pg_class" c!"relnamespace") (.col c!"pg_namespace" c!"oid")]⟩ =
      (cat.namespaces.filter fun s => decide (c.ns = s.oid)).map fun s =>
        [(c!"pg_class", classRow c), (c!"pg_attribute", attributeRow a), (c!"pg_namespace", namespaceRow s)] := by
    rw [rows_inner, hdb, db_namespace, List.filter_map, List.map_map]
    congr 1
    refine List.filter_congr fun s _ => ?_
    show (decide ((c.ns : Int) = (s.oid : Int)) && true) = _
    rw [Bool.and_true, decide_cast]
  rw [h2, List.flatMap_map, List.map_flatMap]
  refine List.flatMap_congr fun s _ => ?_
  have h3 : Join.rows db args
      [(c!"pg_class", classRow c), (c!"pg_attribute", attributeRow a), (c!"pg_namespace", namespaceRow s)]
      ⟨.left, ⟨c!"pg_index", c!"pg_index"⟩, [.eq (.col c!"pg_class" c!"oid") (.col c!"pg_index" c!"indrelid"),
        .any (.col c!"pg_attribute" c!"attnum") (.col c!"pg_index" c!"indkey")]⟩ =
      (Cmd.Catalogue.leftJoin (cat.indexes.filter fun i => decide (c.oid = i.rel) && decide (a.num ∈ i.keys))).map
        fun i => [(c!"pg_class", classRow c), (c!"pg_attribute", attributeRow a),
          (c!"pg_namespace", namespaceRow s), (c!"pg_index", (i.map ixRow).getD [])] := by
    rw [rows_left _ _ _ _ _ cat.indexes ixRow (by rw [hdb, db_index])]
    congr 2
    refine List.filter_congr fun i _ => ?_
    show (decide ((c.oid : Int) = (i.rel : Int)) && (decide (a.num ∈ i.keys) && true)) = _
    rw [Bool.and_true, decide_cast]
  rw [h3, List.flatMap_map, List.map_flatMap]
  refine List.flatMap_congr fun i _ => ?_
  have h4 : holds db args [(c!"pg_class", classRow c), (c!"pg_attribute", attributeRow a),
      (c!"pg_namespace", namespaceRow s), (c!"pg_index", (i.map ixRow).getD [])]
      [.eq (.col c!"pg_namespace" c!"nspname") schema, .oneOf (.col c!"pg_class" c!"relname") es,
        .eq (.col c!"pg_class" c!"relkind") (.lit c!"r"), .ge (.col c!"pg_attribute" c!"attnum") (.num 0)] =
      decide (s.name = name ∧ c.name ∈ names ∧ c.kind = 'r' ∧ a.num ≥ 0) := by
    set env := [(c!"pg_class", classRow c), (c!"pg_attribute", attributeRow a),
      (c!"pg_namespace", namespaceRow s), (c!"pg_index", (i.map ixRow).getD [])]
    show (same (.text s.name) (schema.eval db args env) &&
      ((es.any fun b => same (.text c.name) (b.eval db args env)) &&
        (decide ([c.kind] = ['r']) && (decide (a.num ≥ 0) && true)))) = _
    rw [h.1, h.2]
    simp only [same, Bool.and_true, Bool.decide_and, List.cons.injEq, and_true]
  rw [h4]
  by_cases hc : s.name = name ∧ c.name ∈ names ∧ c.kind = 'r' ∧ a.num ≥ 0
  · rw [if_pos (by rw [decide_eq_true hc]), if_pos hc]
    cases i <;> rfl
  · rw [if_neg (by rw [decide_eq_false hc]; simp), if_neg hc]
    rfl

/-- an index has one row in `pg_index` -/
def OneIndex (cat : Cmd.Catalogue.Catalogue) : Prop := ∀ i ∈ cat.indexes, ∀ j ∈ cat.indexes, i.idx = j.idx → i = j

theorem indexdef_eq (hix : OneIndex cat) (x : Cmd.Catalogue.Ix) (hx : x ∈ cat.indexes) (k : Nat)
    (hk : k < x.keys.length) :
    (pgDb cat keyword expr).indexdef x.idx ((k : Int) + 1) = Cmd.Catalogue.indexDef cat keyword expr x k x.keys[k] := by
  have e : cat.indexes.find? (fun i => decide ((i.idx : Int) = (x.idx : Int))) = some x := by
    cases h : cat.indexes.find? (fun i => decide ((i.idx : Int) = (x.idx : Int))) with
    | none =>
      have := List.find?_eq_none.mp h x hx
      simp at this
    | some y =>
      have h1 := List.find?_some h
      have h2 := List.mem_of_find?_eq_some h
      have : y.idx = x.idx := by
        have := of_decide_eq_true h1
        omega
      rw [hix y h2 x hx this]
  have e2 : ((k : Int) + 1 - 1).toNat = k := by omega
  simp only [pgDb, e, e2, List.getElem?_eq_getElem hk]

theorem defs_eval (hix : OneIndex cat) (x : Cmd.Catalogue.Ix) (hx : x ∈ cat.indexes) (args : List Val)
    (env : List (Str × Row)) :
    defs.eval (pgDb cat keyword expr) args ((c!"pg_index", ixRow x) :: env) =
      .texts (x.keys.mapIdx fun k num => Cmd.Catalogue.indexDef cat keyword expr x k num) := by
  show Val.texts ((sorted (((List.range x.keys.length).map Int.ofNat).map fun (i : Int) =>
    (i, (pgDb cat keyword expr).indexdef x.idx (i + 1)))).map Prod.snd) = _
  rw [sorted_id]
  · congr 1
    rw [List.map_map, List.map_map]
    apply List.ext_getElem
    · simp
    · intro k h1 h2
      have hk : k < x.keys.length := by simpa using h2
      simp only [List.getElem_map, List.getElem_range, List.getElem_mapIdx, Function.comp]
      exact indexdef_eq cat keyword expr hix x hx k hk
  · rw [List.pairwise_map, List.pairwise_map]
    refine List.pairwise_lt_range.imp ?_
    intro a b hab
    simp only [Int.ofNat_eq_natCast]
    omega

/-- one row of the index query, after what more it selects -/
def indexRow (p : Str × List Str) : Row := [(c!"table_name", .text p.1), (c!"column_names", .texts p.2)]

theorem index_rows {B : Type} (hix : OneIndex cat) (more : List (Ex × Str)) (args : List Val) (schema : Ex)
    (es : List Ex) (name : Str) (names : List Str) (h : Stands (pgDb cat keyword expr) args schema es name names)
    (f : Row → B) (g : Str × List Str → B)
    (hf : ∀ x i t s p, f ((more.map fun m => (m.2, m.1.eval (pgDb cat keyword expr) args [(c!"pg_index", ixRow x),
      (c!"i", classRow i), (c!"t", classRow t), (c!"pg_namespace", namespaceRow s)])) ++ indexRow p) = g p) :
    (((indexStmt more schema es).rows (pgDb cat keyword expr) args).map Prod.fst).map f =
      (Cmd.Catalogue.indexRows cat keyword expr name names).map g := by
  set db := pgDb cat keyword expr with hdb
  rw [Stmt.rows, List.map_map, List.map_map, filter_map_flat, Cmd.Catalogue.indexRows, List.map_flatMap]
  simp only [indexStmt, joinAll, List.flatMap_assoc, List.flatMap_map, db_index, hdb]
  simp only [← hdb]
  refine List.flatMap_congr fun x hx => ?_
  have h1 : Join.rows db args [(c!"pg_index", ixRow x)] ⟨.inner, ⟨c!"pg_class", c!"i"⟩,
      [.eq (.col c!"pg_index" c!"indexrelid") (.col c!"i" c!"oid")]⟩ =
      (cat.classes.filter fun i => decide (x.idx = i.oid)).map fun i =>
        [(c!"pg_index", ixRow x), (c!"i", classRow i)] := by
    rw [rows_inner, hdb, db_class, List.filter_map, List.map_map]
    congr 1
    refine List.filter_congr fun a _ => ?_
    show (decide ((x.idx : Int) = (a.oid : Int)) && true) = _
    rw [Bool.and_true, decide_cast]
  rw [h1, List.flatMap_map, List.map_flatMap]
  refine List.flatMap_congr fun i _ => ?_
  have h2 : Join.rows db args [(c!"pg_index", ixRow x), (c!"i", classRow i)] ⟨.inner, ⟨c!"pg_class", c!"t"⟩,
      [.eq (.col c!"pg_index" c!"indrelid") (.col c!"t" c!"oid")]⟩ =
      (cat.classes.filter fun t => decide (x.rel = t.oid)).map fun t =>
        [(c!"pg_index", ixRow x), (c!"i", classRow i), (c!"t", classRow t)] := by
    rw [rows_inner, hdb, db_class, List.filter_map, List.map_map]
    congr 1
    refine List.filter_congr fun a _ => ?_
    show (decide ((x.rel : Int) = (a.oid : Int)) && true) = _
    rw [Bool.and_true, decide_cast]
  rw [h2, List.flatMap_map, List.map_flatMap]
  refine List.flatMap_congr fun t _ => ?_
  have h3 : Join.rows db args [(c!"pg_index", ixRow x), (c!"i", classRow i), (c!"t", classRow t)]
      ⟨.inner, ⟨c!"pg_namespace", c!"pg_namespace"⟩,
        [.eq (.col c!"i" c!"relnamespace") (.col c!"pg_namespace" c!"oid")]⟩ =
      (cat.namespaces.filter fun s => decide (i.ns = s.oid)).map fun s =>
        [(c!"pg_index", ixRow x), (c!"i", classRow i), (c!"t", classRow t), (c!"pg_namespace", namespaceRow s)] := by
    rw [rows_inner, hdb, db_namespace, List.filter_map, List.map_map]
    congr 1
    refine List.filter_congr fun a _ => ?_
    show (decide ((i.ns : Int) = (a.oid : Int)) && true) = _
    rw [Bool.and_true, decide_cast]
  rw [h3, List.flatMap_map, List.map_flatMap]
  refine List.flatMap_congr fun s _ => ?_
  have h4 : holds db args
      [(c!"pg_index", ixRow x), (c!"i", classRow i), (c!"t", classRow t), (c!"pg_namespace", namespaceRow s)]
      [.eq (.col c!"pg_namespace" c!"nspname") schema, .oneOf (.col c!"t" c!"relname") es] =
      decide (s.name = name ∧ t.name ∈ names) := by
    set env := [(c!"pg_index", ixRow x), (c!"i", classRow i), (c!"t", classRow t), (c!"pg_namespace", namespaceRow s)]
    show (same (.text s.name) (schema.eval db args env) &&
      ((es.any fun b => same (.text t.name) (b.eval db args env)) && true)) = _
    rw [h.1, h.2]
    simp only [same, Bool.and_true, Bool.decide_and]
  rw [h4]
  by_cases hc : s.name = name ∧ t.name ∈ names
  · rw [if_pos (by rw [decide_eq_true hc]), if_pos hc, List.map_cons, List.map_nil, ← hf x i t s]
    congr 1
    simp only [Function.comp, List.map_append]
    congr 2
    show [(c!"table_name", Val.text t.name), (c!"column_names", defs.eval db args _)] = _
    rw [hdb, defs_eval cat keyword expr hix x hx]
    rfl
  · rw [if_neg (by rw [decide_eq_false hc]; simp), if_neg hc]
    rfl

end pg

/-! ### MySQL -/

theorem my_column_rows (cat : Cmd.MyCatalogue.Catalogue) (args : List Val) (schema : Ex) (es : List Ex) (name : Str)
    (names : List Str) (h : Stands (myDb cat) args schema es name names) :
    ((myColumnStmt schema es).rows (myDb cat) args).map Prod.fst =
      (Cmd.MyCatalogue.columnRows cat name names).map fun c =>
        [(c!"column_name", .text c.columnName), (c!"column_key", .text c.columnKey),
          (c!"table_name", .text c.tableName)] := by
  set db := myDb cat with hdb
  have hr : db.rows c!"information_schema.columns" = cat.cols.map fun c =>
      [(c!"table_schema", .text c.schema), (c!"table_name", .text c.table), (c!"column_name", .text c.name),
        (c!"column_key", .text c.key)] := rfl
  simp only [Stmt.rows, myColumnStmt, joinAll, hr, List.map_map, List.filter_map, Cmd.MyCatalogue.columnRows]
  refine congrArg₂ List.map rfl ?_
  refine List.filter_congr fun c _ => ?_
  show (same (.text c.schema) (schema.eval db args _) &&
    ((es.any fun b => same (.text c.table) (b.eval db args _)) && true)) = _
  rw [h.2, h.1, Bool.and_true]
  rfl

/-- one row of the index query -/
def statRow (s : Cmd.MyCatalogue.Stat) : Row :=
  [(c!"table_name", .text s.table), (c!"index_name", .text s.index), (c!"column_name", orNull s.column)]

theorem my_index_rows (cat : Cmd.MyCatalogue.Catalogue) (args : List Val) (schema : Ex) (es : List Ex) (name : Str)
    (names : List Str) (h : Stands (myDb cat) args schema es name names) :
    (myIndexStmt schema es).rows (myDb cat) args =
      (Cmd.MyCatalogue.statRows cat name names).map fun s =>
        (statRow s, [.text s.table, .text s.index, .int s.seq]) := by
  set db := myDb cat with hdb
  have hr : db.rows c!"information_schema.statistics" = cat.stats.map fun s =>
      [(c!"table_schema", .text s.schema), (c!"table_name", .text s.table), (c!"index_name", .text s.index),
        (c!"seq_in_index", .int s.seq), (c!"column_name", orNull s.column)] := rfl
  simp only [Stmt.rows, myIndexStmt, joinAll, hr, List.map_map, List.filter_map, Cmd.MyCatalogue.statRows]
  refine congrArg₂ List.map rfl ?_
  refine List.filter_congr fun s _ => ?_
  show (same (.text s.schema) (schema.eval db args _) &&
    ((es.any fun b => same (.text s.table) (b.eval db args _)) && true)) = _
  rw [h.2, h.1, Bool.and_true]
  rfl

/-! ## Properties -/

theorem perm_map_exists {A B : Type} [DecidableEq A] (F : A → B) : ∀ (l : List B) (L : List A), l.Perm (L.map F) →
    ∃ L' : List A, L'.Perm L ∧ l = L'.map F
  | [], L, h => by
    have : L = [] := by
      have := h.length_eq
      cases L with
      | nil => rfl
      | cons a L => simp at this
    exact ⟨[], by rw [this], rfl⟩
  | b :: l, L, h => by
    obtain ⟨x, hx, rfl⟩ := List.mem_map.mp (h.mem_iff.mp (List.mem_cons_self))
    have hp : L.Perm (x :: L.erase x) := List.perm_cons_erase hx
    have h2 : l.Perm ((L.erase x).map F) := by
      have := h.trans (hp.map F)
      rw [List.map_cons] at this
      exact List.Perm.cons_inv this
    obtain ⟨L', h3, rfl⟩ := perm_map_exists F l (L.erase x) h2
    exact ⟨x :: L', (h3.cons x).trans hp.symm, rfl⟩

theorem scanAll_some {A : Type} (scan : Row → Option A) : ∀ (rows : List Row) (l : List A),
    scanAll scan rows = some l → rows.map scan = l.map some
  | [], l, h => by simp only [scanAll, Option.some.injEq] at h; subst h; rfl
  | r :: rows, l, h => by
    simp only [scanAll] at h
    split at h
    · next a as ha has =>
      cases h
      rw [List.map_cons, List.map_cons, scanAll_some scan rows as has, ha]
    · cases h

theorem scanAll_all {A : Type} (scan : Row → Option A) (rows : List Row) (h : ∀ r ∈ rows, ∃ a, scan r = some a) :
    ∃ l, scanAll scan rows = some l := by
  induction rows with
  | nil => exact ⟨[], rfl⟩
  | cons r rows ih =>
    obtain ⟨a, ha⟩ := h r (by simp)
    obtain ⟨l, hl⟩ := ih (fun x hx => h x (List.mem_cons_of_mem _ hx))
    exact ⟨a :: l, by simp only [scanAll, ha, hl]⟩

theorem fetch_ok {A E : Type} (bind : Str → Str) (scan : Row → Option A) (ask : Str → List Str → Except E (List Row))
    (query name q : Str) (names args : List Str) (hq : sqlxIn (E := E) query name names = .ok (q, args)) (l : List A) :
    fetch bind scan ask query name names = .ok l ↔ ∃ out, ask (bind q) args = .ok out ∧ scanAll scan out = some l := by
  rw [fetch, hq]
  simp only
  cases ask (bind q) args with
  | error e => simp
  | ok out =>
    simp only [Except.ok.injEq, exists_eq_left']
    cases scanAll scan out <;> simp

theorem fetch_nonempty {A E : Type} (bind : Str → Str) (scan : Row → Option A)
    (ask : Str → List Str → Except E (List Row)) (query name : Str) (names : List Str) (l : List A)
    (h : fetch bind scan ask query name names = .ok l) : names ≠ [] := by
  intro e
  rw [fetch, sqlxIn, if_pos e] at h
  cases h

section pg
variable {E : Type} (le : Val → Val → Prop) (cat : Cmd.Catalogue.Catalogue) (keyword : Str → Bool)
  (expr : Nat → Nat → Str) (ask : Str → List Str → Except E (List Row))

theorem pgColumns_read (schema : Str) (names : List Str) (hne : names ≠ []) :
    ∃ q, sqlxIn (E := E) pgColumns.text schema names = .ok (q, schema :: names) ∧
      Query.read (rebind 0 q) = some (columnStmt (.param 0) (places names.length)) :=
  reads_postgres pgColumns pgColumns_clean (by decide +kernel) _ pgColumns_stmt schema names hne

theorem pgIndexes_read (schema : Str) (names : List Str) (hne : names ≠ []) :
    ∃ q, sqlxIn (E := E) pgIndexes.text schema names = .ok (q, schema :: names) ∧
      Query.read (rebind 0 q) =
        some (indexStmt [(.col c!"i" c!"relname", c!"index_name")] (.param 0) (places names.length)) :=
  reads_postgres pgIndexes pgIndexes_clean (by decide +kernel) _ pgIndexes_stmt schema names hne

theorem answer_columns (args : List Val) (schema : Ex) (es : List Ex) (name : Str) (names : List Str)
    (h : Stands (pgDb cat keyword expr) args schema es name names) (out : List Row)
    (ha : Answers le (pgDb cat keyword expr) args (columnStmt schema es) out) :
    out.Perm ((Cmd.Catalogue.columnRows cat name names).map columnRow) := by
  obtain ⟨l, hl, -, rfl⟩ := ha
  rw [← column_rows cat keyword expr args schema es name names h]
  exact hl.map _

/-- what one scanned row says -/
def said (c : PgColumn) : Str × Str × Bool := (c.tableName, c.columnName, c.isPK)

theorem scan_columnRow (p : Str × Str × Bool) : scanPgColumn (columnRow p) = some ⟨p.2.1, p.2.2, p.1⟩ := rfl

theorem scan_indexRow (x : Cmd.Catalogue.Ix) (i t : Cmd.Catalogue.Class) (s : Cmd.Catalogue.Namespace)
    (args : List Val) (p : Str × List Str) :
    scanPgIndex (([((Ex.col c!"i" c!"relname"), c!"index_name")].map fun m =>
      (m.2, m.1.eval (pgDb cat keyword expr) args [(c!"pg_index", ixRow x), (c!"i", classRow i), (c!"t", classRow t),
        (c!"pg_namespace", namespaceRow s)])) ++ indexRow p) = some p := rfl

/-- C98: over a PostgreSQL server with this catalogue, the two lookups answer with the rows that
`Verif/Cmd/Catalogue.lean` says, for any schema and names: the texts they send mean just that. -/
theorem C98_postgres (hix : OneIndex cat) (hask : Faithful le (pgDb cat keyword expr) ask) (schema : Str)
    (v : Cmd.PgEnv PgColumn (Err E)) (hc : v.cols = pgGetTableColumns ask schema)
    (hf : v.f = fun c => (c.tableName, c.columnName, c.isPK)) (hs : v.select = pgGetIndexes ask schema) :
    Cmd.Catalogue.Reads v cat keyword expr schema := by
  constructor
  · intro names rows _ h
    rw [hc] at h
    have hne := fetch_nonempty _ _ _ _ _ _ _ h
    obtain ⟨q, h1, h2⟩ := pgColumns_read (E := E) schema names hne
    obtain ⟨out, h3, h4⟩ := (fetch_ok _ _ _ _ _ _ _ _ h1 _).mp h
    have h5 := answer_columns le cat keyword expr _ _ _ schema names (stands_args _ schema names) out
      (hask _ _ _ h3 _ h2)
    have h6 := scanAll_some _ _ _ h4
    have h7 := (h5.map scanPgColumn).symm
    rw [h6, List.map_map] at h7
    have e : (scanPgColumn ∘ columnRow) = fun p => some (⟨p.2.1, p.2.2, p.1⟩ : PgColumn) := rfl
    rw [e] at h7
    have h8 := (h7.map (Option.map (fun c : PgColumn => (c.tableName, c.columnName, c.isPK)))).symm
    rw [List.map_map, List.map_map] at h8
    rw [hf]
    have h9 := h8.filterMap id
    simp only [List.filterMap_map] at h9
    have e1 : rows.filterMap (id ∘ (Option.map fun c : PgColumn => (c.tableName, c.columnName, c.isPK)) ∘ some) =
        rows.map fun c => (c.tableName, c.columnName, c.isPK) := by
      rw [← List.filterMap_eq_map]; rfl
    have e2 : ∀ l : List (Str × Str × Bool), l.filterMap (id ∘
        (Option.map fun c : PgColumn => (c.tableName, c.columnName, c.isPK)) ∘
          fun p => some (⟨p.2.1, p.2.2, p.1⟩ : PgColumn)) = l := by
      intro l
      induction l with
      | nil => rfl
      | cons a l ih => rw [List.filterMap_cons, ih]; rfl
    rw [e1, e2] at h9
    exact h9
  · intro names irows _ h
    rw [hs] at h
    have hne := fetch_nonempty _ _ _ _ _ _ _ h
    obtain ⟨q, h1, h2⟩ := pgIndexes_read (E := E) schema names hne
    obtain ⟨out, h3, h4⟩ := (fetch_ok _ _ _ _ _ _ _ _ h1 _).mp h
    obtain ⟨l, hl, -, rfl⟩ := hask _ _ _ h3 _ h2
    have h6 := scanAll_some _ _ _ h4
    have h7 := (hl.map Prod.fst).map scanPgIndex
    rw [h6, index_rows cat keyword expr hix _ _ _ _ schema names (stands_args _ schema names) scanPgIndex some
      (fun x i t s p => scan_indexRow cat keyword expr x i t s _ p)] at h7
    have h8 := h7.filterMap id
    simp only [List.filterMap_map] at h8
    have e : ∀ l : List (Str × List Str), l.filterMap (id ∘ some) = l := fun l => by
      induction l with
      | nil => rfl
      | cons a l ih => rw [List.filterMap_cons, ih]; rfl
    rw [e, e] at h8
    exact h8

/-- C98: and if the server answers, so do the lookups: every row fits the fields it is read into. -/
theorem C98_postgres_answers (hix : OneIndex cat) (hask : Faithful le (pgDb cat keyword expr) ask) (schema : Str)
    (names : List Str) (hne : names ≠ []) (hans : ∀ text args s, Query.read text = some s → ∃ out, ask text args = .ok out) :
    (∃ rows, pgGetTableColumns ask schema names = .ok rows) ∧ ∃ rows, pgGetIndexes ask schema names = .ok rows := by
  constructor
  · obtain ⟨q, h1, h2⟩ := pgColumns_read (E := E) schema names hne
    obtain ⟨out, h3⟩ := hans (rebind 0 q) (schema :: names) _ h2
    have h5 := answer_columns le cat keyword expr _ _ _ schema names (stands_args _ schema names) out
      (hask _ _ _ h3 _ h2)
    obtain ⟨l, hl⟩ := scanAll_all scanPgColumn out (fun r hr => by
      obtain ⟨p, -, rfl⟩ := List.mem_map.mp (h5.mem_iff.mp hr)
      exact ⟨_, scan_columnRow p⟩)
    exact ⟨l, (fetch_ok _ _ _ _ _ _ _ _ h1 _).mpr ⟨out, h3, hl⟩⟩
  · obtain ⟨q, h1, h2⟩ := pgIndexes_read (E := E) schema names hne
    obtain ⟨out, h3⟩ := hans (rebind 0 q) (schema :: names) _ h2
    obtain ⟨l, hl, -, rfl⟩ := hask _ _ _ h3 _ h2
    have h7 := index_rows cat keyword expr hix [((Ex.col c!"i" c!"relname"), c!"index_name")] _ _ _ schema names
      (stands_args _ schema names) scanPgIndex some
      (fun x i t s p => scan_indexRow cat keyword expr x i t s _ p)
    have h8 := ((hl.map Prod.fst).map scanPgIndex).trans (List.Perm.of_eq h7)
    obtain ⟨l', hl'⟩ := scanAll_all scanPgIndex (l.map Prod.fst) (fun r hr => by
      obtain ⟨p, -, hp⟩ := List.mem_map.mp (h8.mem_iff.mp (List.mem_map_of_mem hr))
      exact ⟨p, hp.symm⟩)
    exact ⟨l', (fetch_ok _ _ _ _ _ _ _ _ h1 _).mpr ⟨_, h3, hl'⟩⟩

end pg

/-- what ORDER BY does with values: the same come together; numbers by size -/
structure Collates (le : Val → Val → Prop) : Prop where
  refl : ∀ v, le v v
  texts : ∀ a b, le (.text a) (.text b) → le (.text b) (.text a) → a = b
  ints : ∀ a b, le (.int a) (.int b) → a ≤ b

section my
variable {E : Type} (le : Val → Val → Prop) (cat : Cmd.MyCatalogue.Catalogue)
  (ask : Str → List Str → Except E (List Row))

theorem myColumns_read (schema : Str) (names : List Str) (hne : names ≠ []) :
    ∃ q, sqlxIn (E := E) myColumns.text schema names = .ok (q, schema :: names) ∧
      Query.read q = some (myColumnStmt (.param 0) (places names.length)) :=
  reads_mysql myColumns myColumns_clean (by decide +kernel) _ myColumns_stmt schema names hne

theorem myIndexes_read (schema : Str) (names : List Str) (hne : names ≠ []) :
    ∃ q, sqlxIn (E := E) myIndexes.text schema names = .ok (q, schema :: names) ∧
      Query.read q = some (myIndexStmt (.param 0) (places names.length)) :=
  reads_mysql myIndexes myIndexes_clean (by decide +kernel) _ myIndexes_stmt schema names hne

theorem scan_statRow (s : Cmd.MyCatalogue.Stat) : scanMyIndex (statRow s) = match s.column with
    | none => none
    | some c => some ⟨s.table, s.index, c⟩ := by
  obtain ⟨a, b, c, d, e, f, g, h⟩ := s
  cases e <;> rfl

theorem scanAll_stats : ∀ l : List Cmd.MyCatalogue.Stat,
    scanAll scanMyIndex (l.map statRow) = Cmd.MyCatalogue.scan l
  | [] => rfl
  | s :: l => by
    rw [List.map_cons, scanAll, scanAll_stats l, scan_statRow, Cmd.MyCatalogue.scan]
    cases s.column with
    | none => rfl
    | some c => cases Cmd.MyCatalogue.scan l <;> rfl

theorem before_stats (hle : Collates le) (a b : Cmd.MyCatalogue.Stat)
    (h : Before le [.text a.table, .text a.index, .int a.seq] [.text b.table, .text b.index, .int b.seq]) :
    Cmd.MyCatalogue.Before (fun p q => le (.text p.1) (.text q.1) ∧
      (le (.text q.1) (.text p.1) → le (.text p.2) (.text q.2))) a b := by
  simp only [Before] at h
  refine ⟨⟨h.1, fun h1 => (h.2 h1).1⟩, fun e => ?_⟩
  have e1 : a.table = b.table := congrArg Prod.fst e
  have e2 : a.index = b.index := congrArg Prod.snd e
  have := ((h.2 (by rw [e1]; exact hle.refl _)).2 (by rw [e2]; exact hle.refl _)).1
  have := hle.ints _ _ this
  omega

/-- C98: over a MySQL server with these tables, the two lookups answer with the rows that
`Verif/Cmd/MyCatalogue.lean` says, the second in the order it needs. -/
theorem C98_mysql (hle : Collates le) (hask : Faithful le (myDb cat) ask) (schema : Str)
    (v : Cmd.MyEnv Schemas.MysqlColumn (Err E)) (hc : v.cols = myGetTableColumns ask schema)
    (hf : v.f = Schemas.mysqlRow) (hs : v.select = myGetIndexes ask schema) :
    Cmd.MyCatalogue.Reads v cat schema := by
  constructor
  · intro names rows h
    rw [hc] at h
    have hne := fetch_nonempty _ _ _ _ _ _ _ h
    obtain ⟨q, h1, h2⟩ := myColumns_read (E := E) schema names hne
    obtain ⟨out, h3, h4⟩ := (fetch_ok _ _ _ _ _ _ _ _ h1 _).mp h
    obtain ⟨l, hl, -, rfl⟩ := hask _ _ _ h3 _ h2
    have h6 := scanAll_some _ _ _ h4
    have h7 := (hl.map Prod.fst).map scanMyColumn
    rw [h6, my_column_rows cat _ _ _ schema names (stands_args _ schema names), List.map_map] at h7
    have h8 := h7.filterMap id
    simp only [List.filterMap_map] at h8
    have e : ∀ l : List Schemas.MysqlColumn, l.filterMap (id ∘ some) = l := fun l => by
      induction l with
      | nil => rfl
      | cons a l ih => rw [List.filterMap_cons, ih]; rfl
    have e2 : ∀ l : List Schemas.MysqlColumn, l.filterMap (id ∘ scanMyColumn ∘ fun c =>
        [(c!"column_name", .text c.columnName), (c!"column_key", .text c.columnKey),
          (c!"table_name", .text c.tableName)]) = l := fun l => by
      induction l with
      | nil => rfl
      | cons a l ih => rw [List.filterMap_cons, ih]; rfl
    rw [e, e2] at h8
    rw [hf]
    exact h8.map _
  · intro names irows h
    rw [hs] at h
    have hne := fetch_nonempty _ _ _ _ _ _ _ h
    obtain ⟨q, h1, h2⟩ := myIndexes_read (E := E) schema names hne
    obtain ⟨out, h3, h4⟩ := (fetch_ok _ _ _ _ _ _ _ _ h1 _).mp h
    obtain ⟨l, hl, hsort, rfl⟩ := hask _ _ _ h3 _ h2
    rw [my_index_rows cat _ _ _ schema names (stands_args _ schema names)] at hl
    obtain ⟨sorted, hp, rfl⟩ := perm_map_exists _ _ _ hl
    refine ⟨fun p q => le (.text p.1) (.text q.1) ∧ (le (.text q.1) (.text p.1) → le (.text p.2) (.text q.2)),
      sorted, ?_, hp, ?_, ?_⟩
    · intro a b hab hba
      have e1 := hle.texts _ _ hab.1 hba.1
      have e2 := hle.texts _ _ (hab.2 hba.1) (hba.2 hab.1)
      exact Prod.ext e1 e2
    · rw [List.pairwise_map] at hsort
      exact hsort.imp (fun {a b} hab => before_stats le hle a b hab)
    · rw [List.map_map] at h4
      rw [← h4]
      exact (scanAll_stats sorted).symm

/-- C98: the columns are there whenever the server answers; the indexes exactly when none of the tables has an
index on an expression. -/
theorem C98_mysql_answers (hask : Faithful le (myDb cat) ask) (schema : Str) (names : List Str) (hne : names ≠ [])
    (hans : ∀ text args s, Query.read text = some s → ∃ out, ask text args = .ok out) :
    (∃ rows, myGetTableColumns ask schema names = .ok rows) ∧
    ((∃ rows, myGetIndexes ask schema names = .ok rows) ↔
      ∀ s ∈ cat.stats, s.schema = schema → s.table ∈ names → s.column ≠ none) := by
  constructor
  · obtain ⟨q, h1, h2⟩ := myColumns_read (E := E) schema names hne
    obtain ⟨out, h3⟩ := hans q (schema :: names) _ h2
    obtain ⟨l, hl, -, rfl⟩ := hask _ _ _ h3 _ h2
    have h5 := hl.map Prod.fst
    rw [my_column_rows cat _ _ _ schema names (stands_args _ schema names)] at h5
    obtain ⟨l', hl'⟩ := scanAll_all scanMyColumn (l.map Prod.fst) (fun r hr => by
      obtain ⟨p, -, rfl⟩ := List.mem_map.mp (h5.mem_iff.mp hr)
      exact ⟨p, rfl⟩)
    exact ⟨l', (fetch_ok _ _ _ _ _ _ _ _ h1 _).mpr ⟨_, h3, hl'⟩⟩
  · obtain ⟨q, h1, h2⟩ := myIndexes_read (E := E) schema names hne
    obtain ⟨out, h3⟩ := hans q (schema :: names) _ h2
    obtain ⟨l, hl, -, rfl⟩ := hask _ _ _ h3 _ h2
    rw [my_index_rows cat _ _ _ schema names (stands_args _ schema names)] at hl
    obtain ⟨sorted, hp, rfl⟩ := perm_map_exists _ _ _ hl
    have hscan : scanAll scanMyIndex ((sorted.map fun s =>
        (statRow s, [Val.text s.table, .text s.index, .int s.seq])).map Prod.fst) = Cmd.MyCatalogue.scan sorted := by
      rw [List.map_map]; exact scanAll_stats sorted
    have hmem : ∀ s, s ∈ sorted ↔ s ∈ cat.stats ∧ s.schema = schema ∧ s.table ∈ names := by
      intro s
      rw [hp.mem_iff, Cmd.MyCatalogue.statRows, List.mem_filter]
      simp
    constructor
    · rintro ⟨rows, h⟩ s hs e1 e2
      obtain ⟨out, h4, h5⟩ := (fetch_ok _ _ _ _ _ _ _ _ h1 _).mp h
      rw [id, h3] at h4
      cases h4
      rw [hscan] at h5
      exact Cmd.MyCatalogue.scan_some h5 s ((hmem s).mpr ⟨hs, e1, e2⟩)
    · intro h
      obtain ⟨l', hl'⟩ := scanAll_all scanMyIndex ((sorted.map fun s =>
        (statRow s, [Val.text s.table, .text s.index, .int s.seq])).map Prod.fst) (fun r hr => by
          rw [List.map_map] at hr
          obtain ⟨s, hs, rfl⟩ := List.mem_map.mp hr
          have := (hmem s).mp hs
          have := h s this.1 this.2.1 this.2.2
          show ∃ a, scanMyIndex (statRow s) = some a
          rw [scan_statRow]
          cases hcol : s.column with
          | none => exact absurd hcol this
          | some c => exact ⟨_, rfl⟩)
      exact ⟨l', (fetch_ok _ _ _ _ _ _ _ _ h1 _).mpr ⟨_, h3, hl'⟩⟩

end my

/-! ### Hasura -/

/-- a value as Hasura shows it: texts as they are, `t` and `f`, arrays as `enc` writes them -/
def cell (enc : List Str → Str) : Val → Str
  | .text s => s
  | .bool b => if b then ['t'] else ['f']
  | .texts l => enc l
  | .int i => (toString i).toList
  | .vec _ => []
  | .null => []

/-- Hasura passes a statement to the database and shows the rows below a row with the labels. -/
def Passes (le : Val → Val → Prop) (db : Db) (enc : List Str → Str)
    (run : RunSQLArgs → Except Hasura.Err (List (List Str))) : Prop :=
  ∀ args cells, run args = .ok cells → ∀ s, Query.read args.sql = some s →
    ∃ out header, Answers le db [] s out ∧ cells = header :: out.map fun r => r.map fun p => cell enc p.2

section hasura
variable (le : Val → Val → Prop) (cat : Cmd.Catalogue.Catalogue) (keyword : Str → Bool)
  (expr : Nat → Nat → Str) (enc : List Str → Str) (run : RunSQLArgs → Except Hasura.Err (List (List Str)))

theorem mapM_some {A B : Type} (f : A → Option B) (g : A → B) (l : List A) (h : ∀ a ∈ l, f a = some (g a)) :
    l.mapM f = some (l.map g) := by
  induction l with
  | nil => rfl
  | cons a l ih =>
    rw [List.mapM_cons, h a (by simp), ih (fun x hx => h x (List.mem_cons_of_mem _ hx))]
    rfl

/-- C98: through Hasura the columns are the same. -/
theorem C98_hasura_columns (hrun : Passes le (pgDb cat keyword expr) enc run) (schema : Str) (names : List Str)
    (hne : names ≠ []) (r : Option (Except Hasura.Err (List ColumnInfo))) (reqs : List RunSQLArgs)
    (h : getTableColumns run schema names = (r, reqs)) :
    (∃ e, r = some (.error e)) ∨ ∃ infos, r = some (.ok infos) ∧
      (infos.map fun c => (c.tableName, c.columnName, c.isPK)).Perm (Cmd.Catalogue.columnRows cat schema names) := by
  rw [getTableColumns] at h
  split at h
  · cases h; exact .inl ⟨_, rfl⟩
  · next q hq =>
    simp only at h
    split at h
    · cases h; exact .inl ⟨_, rfl⟩
    · next cells hc =>
      cases h
      have h2 := reads_hasura columnFetchQuery hasuraColumns_clean schema (by krfl) _ (hasuraColumns_stmt schema)
        names hne q hq
      obtain ⟨out, header, ha, rfl⟩ := hrun _ _ hc _ h2
      have h5 := answer_columns le cat keyword expr _ _ _ schema names (stands_lits _ schema names) out ha
      right
      obtain ⟨L, hp, rfl⟩ := perm_map_exists _ _ _ h5
      refine ⟨L.map fun p => ⟨p.2.1, p.2.2, p.1⟩, ?_, ?_⟩
      · rw [parseColumnFetchResult, List.drop_succ_cons, List.drop_zero, List.map_map]
        have : (L.map ((fun r : Row => r.map fun p => cell enc p.2) ∘ columnRow)).mapM parseColumnRow =
            some (L.map fun p => (⟨p.2.1, p.2.2, p.1⟩ : ColumnInfo)) := by
          rw [List.mapM_map]
          refine mapM_some _ _ _ fun p _ => ?_
          obtain ⟨t, c, b⟩ := p
          cases b <;> rfl
        rw [this]
        rfl
      · rw [List.map_map]
        have : ((fun c : ColumnInfo => (c.tableName, c.columnName, c.isPK)) ∘
          fun p : Str × Str × Bool => (⟨p.2.1, p.2.2, p.1⟩ : ColumnInfo)) = id := rfl
        rw [this, List.map_id]
        exact hp

/-- C98: and so are the indexes, if arrays are read as they are written. -/
theorem C98_hasura_indexes (hix : OneIndex cat) (hrun : Passes le (pgDb cat keyword expr) enc run)
    (scan : Str → Except Hasura.Err (List Str)) (hscan : ∀ l, scan (enc l) = .ok l) (schema : Str) (names : List Str)
    (hne : names ≠ []) (r : Option (Except Hasura.Err (List (Str × List Str)))) (reqs : List RunSQLArgs)
    (h : getIndexes scan run schema names = (r, reqs)) :
    (∃ e, r = some (.error e)) ∨ ∃ infos, r = some (.ok infos) ∧
      infos.Perm (Cmd.Catalogue.indexRows cat keyword expr schema names) := by
  rw [getIndexes] at h
  split at h
  · cases h; exact .inl ⟨_, rfl⟩
  · next q hq =>
    simp only at h
    split at h
    · cases h; exact .inl ⟨_, rfl⟩
    · next cells hc =>
      cases h
      have h2 := reads_hasura indexFetchQuery hasuraIndexes_clean schema (by krfl) _ (hasuraIndexes_stmt schema)
        names hne q hq
      obtain ⟨out, header, ⟨l, hl, -, rfl⟩, rfl⟩ := hrun _ _ hc _ h2
      have h5 := (hl.map Prod.fst).map id
      rw [index_rows cat keyword expr hix [] _ _ _ schema names (stands_lits _ schema names) id indexRow
        (fun x i t s p => rfl), List.map_id] at h5
      right
      obtain ⟨L, hp, e⟩ := perm_map_exists _ _ _ h5
      refine ⟨L, ?_, hp⟩
      rw [List.drop_succ_cons, List.drop_zero, e, List.map_map]
      clear h5 e hp
      induction L with
      | nil => rfl
      | cons p L ih =>
        rw [List.map_cons]
        have e : ((fun r : Row => r.map fun p => cell enc p.2) ∘ indexRow) p = [p.1, enc p.2] := rfl
        rw [e, parseIndexRows, hscan, ih]
        rfl

end hasura

end Verif.Infra.Fetch
