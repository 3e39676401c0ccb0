import Verif.Client.Shell
import Verif.Examine.Props
import Mathlib.Data.List.Sort
/-!
# C80: the SQL shown for an examined index

`/repo/client/src/models/{IndexTarget,PostgresIndexTarget,HasuraIndexTarget}.ts`,
`/repo/client/src/components/ExaminationResultTable.svelte`
-/
namespace Verif.Client.Ddl
open Verif.Index Verif.Index.Spec Verif.Sql Verif.Examine

abbrev Str := List Char

/-! ## Model -/

/-- `this.columns.map((v) => v.name).join(", ")`, `/repo/client/src/models/IndexTarget.ts:19` -/
def columnList (it : IndexTarget) : Str := joinWith [',', ' '] (it.columns.map (·.name))

/-- `/repo/client/src/models/IndexTarget.ts:18-22` `toAlterAddSQL` (MySQL) -/
def mysqlSQL (it : IndexTarget) : Str :=
  "ALTER TABLE ".toList ++ it.tableName ++ " ADD INDEX (".toList ++ columnList it ++ ");".toList

/-- `/repo/client/src/models/PostgresIndexTarget.ts:4-8` `toAlterAddSQL`, also that of
`HasuraIndexTarget` -/
def postgresSQL (it : IndexTarget) : Str :=
  "CREATE INDEX ON ".toList ++ it.tableName ++ " (".toList ++ columnList it ++ ");".toList

/-- `/repo/client/src/models/IndexTarget.ts:9-12` `toString` -/
def describe (it : IndexTarget) : Str :=
  "Table=".toList ++ it.tableName ++ " / Column=".toList ++ columnList it

/-- the part of the command before the SQL, `/repo/client/src/models/HasuraIndexTarget.ts:5-12`: in a
template literal a backslash at the end of a line removes the line break, and `\$` is `$`. -/
@[irreducible] def curlHead : Str := "curl --request POST   --url ".toList
@[irreducible] def curlUrl : Str := "HASURA_URL".toList
@[irreducible] def curlPath : Str := "/v2/query".toList
@[irreducible] def curlHeader : Str := "   --header ".toList
@[irreducible] def curlType : Str := "Content-Type: application/json".toList
@[irreducible] def curlSecretName : Str := "x-hasura-admin-secret: ".toList
@[irreducible] def curlSecret : Str := "HASURA_ADMIN_SECRET".toList
@[irreducible] def curlData : Str := "   --data ".toList
@[irreducible] def bodyHead : Str := "{\n\t\"type\": \"run_sql\",\n\t\"args\": {\n\t\t\"sql\": ".toList
@[irreducible] def bodyEnd : Str := "\n\t}\n}".toList

/-- the text between the single quotes, `/repo/client/src/models/HasuraIndexTarget.ts:9-14` -/
def curlBody (sql : Str) : Str := bodyHead ++ '"' :: sql ++ '"' :: bodyEnd

/-- `/repo/client/src/models/HasuraIndexTarget.ts:4-15` `toExecutableText` -/
def curl (it : IndexTarget) : Str :=
  curlHead ++ '"' :: '$' :: '{' :: curlUrl ++ '}' :: curlPath ++ '"' :: curlHeader ++ '\'' :: curlType ++
    '\'' :: curlHeader ++ '"' :: curlSecretName ++ '$' :: '{' :: curlSecret ++ '}' :: '"' :: curlData ++
    '\'' :: curlBody (postgresSQL it) ++ ['\'']

/-- the three kinds of pages -/
inductive Page where
  | mysql | postgres | hasura
deriving DecidableEq, Repr

/-- dynamic dispatch on the class chosen by `/repo/client/src/models/*SuggestData.ts` -/
def Page.sql : Page → IndexTarget → Str
  | .mysql => mysqlSQL
  | .postgres | .hasura => postgresSQL

/-- a row of `/repo/client/src/components/ExaminationResultTable.svelte:35-52`; the percentage is left
out -/
structure Row where
  millis : Int
  columns : Str
  sql : Str
deriving DecidableEq

/-- `/repo/client/src/components/ExaminationResultTable.svelte:4-7` and `35-52`; `sort` is
`Array.prototype.sort` by execution time. -/
def tableRows (page : Page) (sort : List IndexResult → List IndexResult) (r : Result) : List Row :=
  (sort r.indexResults).map fun x => ⟨x.millis, describe x.target, page.sql x.target⟩

/-! ## Specification: which index a statement creates -/

/-- unquoted names: PostgreSQL folds them to lower case, MySQL does not. -/
inductive Dialect where
  | mysql | postgres
deriving DecidableEq, Repr

def lower (s : Str) : Str := s.map Char.toLower

def Dialect.fold : Dialect → Str → Str
  | .mysql, s => s
  | .postgres, s => lower s

/-- the quote character of identifiers -/
def Dialect.quote : Dialect → Char
  | .mysql => '`'
  | .postgres => '"'

def startsWithDigit : Str → Bool
  | c :: _ => c.isDigit
  | [] => false

/-- The name a token stands for.  Without quotes, reserved words (`reserved` is asked in lower case) are
no names, nor are words beginning with a digit (MySQL would accept some of these). -/
def ident (d : Dialect) (reserved : Str → Bool) : Tok → Option Str
  | .quoted s => if s = [] then none else some s
  | .word w => if reserved (lower w) || startsWithDigit w then none else some (d.fold w)
  | .sym _ => none

/-- a list of columns up to the closing parenthesis, and what follows -/
def columns (name : Tok → Option Str) : List Tok → Option (List Str × List Tok)
  | t :: .sym ',' :: r => do
    let c ← name t
    let (cs, r) ← columns name r
    some (c :: cs, r)
  | t :: .sym ')' :: r => do
    let c ← name t
    some ([c], r)
  | _ => none

/-- one statement, with or without a semicolon -/
def ended (r : List Tok) : Bool := r == [] || r == [.sym ';']

def isKw (k : Str) : Tok → Bool
  | .word w => lower w == k
  | _ => false

/-- `( columns ) [;]` -/
def rest (name : Tok → Option Str) (table : Str) : List Tok → Option (Str × List Str)
  | .sym '(' :: r => do
    let (cs, r) ← columns name r
    if ended r then some (table, cs) else none
  | _ => none

/-- `CREATE INDEX [name] ON table ( columns ) [;]` -/
def createIndex (name : Tok → Option Str) : List Tok → Option (Str × List Str)
  | c :: i :: r =>
    if isKw ['c', 'r', 'e', 'a', 't', 'e'] c && isKw ['i', 'n', 'd', 'e', 'x'] i then
      match r with
      | a :: b :: r =>
        if isKw ['o', 'n'] a then (name b).bind fun t => rest name t r
        else if isKw ['o', 'n'] b then
          match name a, r with
          | some _, t :: r => (name t).bind fun t => rest name t r
          | _, _ => none
        else none
      | _ => none
    else none
  | _ => none

/-- `ALTER TABLE table ADD INDEX [name] ( columns ) [;]` -/
def alterAdd (name : Tok → Option Str) : List Tok → Option (Str × List Str)
  | a :: t :: tb :: ad :: i :: r =>
    if isKw ['a', 'l', 't', 'e', 'r'] a && isKw ['t', 'a', 'b', 'l', 'e'] t && isKw ['a', 'd', 'd'] ad &&
        isKw ['i', 'n', 'd', 'e', 'x'] i then
      (name tb).bind fun tb => match r with
        | .sym c :: r => rest name tb (.sym c :: r)
        | n :: r => (name n).bind fun _ => rest name tb r
        | [] => none
    else none
  | _ => none

/-- table and columns of the index a statement creates; `none` if the database refuses it. -/
def creates (d : Dialect) (reserved : Str → Bool) (stmt : Str) : Option (Str × List Str) :=
  (lex d.quote stmt).bind (match d with
    | .mysql => alterAdd (ident d reserved)
    | .postgres => createIndex (ident d reserved))

/-- names that mean the same with and without quotes -/
def Ordinary (d : Dialect) (reserved : Str → Bool) (w : Str) : Prop :=
  reserved (lower w) = false ∧ startsWithDigit w = false ∧ d.fold w = w

/-- the database behind a page -/
def Page.dialect : Page → Dialect
  | .mysql => .mysql
  | .postgres => .postgres
  | .hasura => .postgres

/-- the statement with which the examiner of this page creates the index: `mservice`, `pservice`,
`hservice` `IndexExaminer.CreateIndex` -/
def Page.examined : Page → Str → IndexTarget → Str
  | .mysql => mysqlCreate
  | .postgres => postgresCreate
  | .hasura => postgresCreate

/-- table and columns of a target -/
def index (it : IndexTarget) : Str × List Str := (it.tableName, it.columns.map (·.name))

/-! ### Shell: single quotes and parameters -/

/-- XCU 2.2.2, 2.2.3, 2.6.2; as `Shell.Q`, with single quotes and `${name}` inside double quotes. -/
inductive Q where
  | between
  | bare (acc : Str)
  | dq (acc : Str)
  | sq (acc : Str)
  | dollar (acc : Str)
  | var (acc name : Str)
  | bad

/-- words so far and where the shell is -/
def shStep (env : Str → Str) (s : List Str × Q) (c : Char) : List Str × Q :=
  match s.2 with
  | .between =>
    if c = ' ' ∨ c = '\t' then s
    else if c = '"' then (s.1, .dq [])
    else if c = '\'' then (s.1, .sq [])
    else if Shell.isPlain c then (s.1, .bare [c])
    else (s.1, .bad)
  | .bare a =>
    if c = ' ' ∨ c = '\t' then (s.1 ++ [a], .between)
    else if c = '"' then (s.1, .dq a)
    else if c = '\'' then (s.1, .sq a)
    else if Shell.isPlain c then (s.1, .bare (a ++ [c]))
    else (s.1, .bad)
  | .dq a =>
    if c = '"' then (s.1, .bare a)
    else if c = '$' then (s.1, .dollar a)
    else if c = '`' ∨ c = '\\' then (s.1, .bad)
    else (s.1, .dq (a ++ [c]))
  | .dollar a => if c = '{' then (s.1, .var a []) else (s.1, .bad)
  | .var a n =>
    if c = '}' then (s.1, .dq (a ++ env n))
    else if Regex.isWord c then (s.1, .var a (n ++ [c]))
    else (s.1, .bad)
  | .sq a => if c = '\'' then (s.1, .bare a) else (s.1, .sq (a ++ [c]))
  | .bad => s

def shEnd : List Str × Q → Option (List Str)
  | (ws, .between) => some ws
  | (ws, .bare a) => some (ws ++ [a])
  | _ => none

/-- the arguments of a command line; `none` if the command is incomplete or contains anything else. -/
def shellWords (env : Str → Str) (s : Str) : Option (List Str) :=
  shEnd (s.foldl (shStep env) ([], .between))

/-! ### JSON: punctuation and strings -/

inductive JTok where
  | sym (c : Char)
  | str (s : Str)
deriving DecidableEq, Repr

inductive JS where
  | out
  | str (acc : Str)
  | esc (acc : Str)
  | bad
deriving DecidableEq, Repr

/-- RFC 8259; of the escapes only those for `"`, `\` and `/` are given, numbers and names are not needed
here. -/
def jStep (s : List JTok × JS) (c : Char) : List JTok × JS :=
  match s.2 with
  | .out =>
    if c = ' ' ∨ c = '\t' ∨ c = '\n' ∨ c = '\r' then s
    else if c = '"' then (s.1, .str [])
    else if c ∈ ['{', '}', '[', ']', ':', ','] then (s.1 ++ [.sym c], .out)
    else (s.1, .bad)
  | .str a =>
    if c = '"' then (s.1 ++ [.str a], .out)
    else if c = '\\' then (s.1, .esc a)
    else if c.toNat < 32 then (s.1, .bad)
    else (s.1, .str (a ++ [c]))
  | .esc a => if c = '"' ∨ c = '\\' ∨ c = '/' then (s.1, .str (a ++ [c])) else (s.1, .bad)
  | .bad => s

def jsonToks (s : Str) : Option (List JTok) :=
  match s.foldl jStep ([], .out) with
  | (ts, .out) => some ts
  | _ => none

/-! ## Proofs: the SQL -/

/-- the tokens of the columns without quotes -/
def wordCols (cols : List Str) : List Tok := List.intercalate [.sym ','] (cols.map fun c => [.word c])

/-- a word followed by a symbol that is no part of words -/
theorem lexGo_word_sym (q : Char) (w : Str) (c : Char) (r : Str) (hne : w ≠ [])
    (h : ∀ c ∈ w, Regex.isWord c = true) (hq : Regex.isWord q = false) (hw : Regex.isWord c = false) :
    lexGo q .out (w ++ c :: r) = (lexGo q .out (c :: r)).map (.word w :: ·) := by
  cases w with
  | nil => exact absurd rfl hne
  | cons x xs =>
    have hc := h x (by simp)
    have hcq : x ≠ q := fun e => by rw [e, hq] at hc; cases hc
    have hsp : ¬(x = ' ' ∨ x = '\n' ∨ x = '\t') := by
      rintro (e | e | e) <;> (rw [e] at hc; exact absurd hc (by decide))
    have h1 : lexGo q .out (x :: xs ++ c :: r) = lexGo q (.word [x]) (xs ++ c :: r) := by
      simp [lexGo, start, hcq, hsp, hc]
    rw [h1, lexGo_word q xs (c :: r) [x] (fun y hy => h y (by simp [hy]))]
    simp only [lexGo, hw, Bool.false_eq_true, if_false, Option.map_map]
    congr 1

theorem lex_wordCols (q : Char) (cols : List Str) (r : Str) (hne : cols ≠ [])
    (h : ∀ w ∈ cols, w ≠ [] ∧ ∀ c ∈ w, Regex.isWord c = true) (hq : Regex.isWord q = false)
    (hq1 : q ≠ ',') (hq2 : q ≠ ')') (hqs : q ≠ ' ') :
    lexGo q .out (joinWith [',', ' '] cols ++ ')' :: r) =
      (lexGo q .out r).map (wordCols cols ++ Tok.sym ')' :: ·) := by
  induction cols with
  | nil => exact absurd rfl hne
  | cons c cs ih =>
    have hc := h c (by simp)
    cases cs with
    | nil =>
      simp only [joinWith]
      rw [lexGo_word_sym q c ')' r hc.1 hc.2 hq (by decide), lexGo_out_sym q ')' r hq2.symm (by decide) (by decide)]
      simp [wordCols, List.intercalate, Option.map_map, Function.comp_def]
    | cons d ds =>
      have ih' := ih (by simp) (fun x hx => h x (by simp [hx]))
      have hj : joinWith [',', ' '] (c :: d :: ds) ++ ')' :: r =
          c ++ ',' :: ' ' :: (joinWith [',', ' '] (d :: ds) ++ ')' :: r) := by simp [joinWith]
      rw [hj, lexGo_word_sym q c ',' _ hc.1 hc.2 hq (by decide), lexGo_out_sym q ',' _ hq1.symm (by decide) (by decide),
        lexGo_out_space q _ hqs, ih']
      simp [wordCols, List.intercalate, Option.map_map, Function.comp_def]

theorem columns_toks (name : Tok → Option Str) (tok : Str → Tok) (r : List Tok) : ∀ cols : List Str, cols ≠ [] →
    columns name (List.intercalate [.sym ','] (cols.map fun c => [tok c]) ++ .sym ')' :: r) =
      (cols.mapM fun c => name (tok c)).map (·, r)
  | [], h => absurd rfl h
  | [c], _ => by
    simp only [List.intercalate, List.map_cons, List.map_nil, List.intersperse_singleton, List.flatten_cons,
      List.flatten_nil, List.append_nil, List.cons_append, List.nil_append, columns, List.mapM_cons, List.mapM_nil]
    cases name (tok c) <;> rfl
  | c :: d :: cs, _ => by
    have ih := columns_toks name tok r (d :: cs) (by simp)
    have : List.intercalate [Tok.sym ','] ((c :: d :: cs).map fun c => [tok c]) ++ .sym ')' :: r =
        tok c :: .sym ',' :: (List.intercalate [.sym ','] ((d :: cs).map fun c => [tok c]) ++ .sym ')' :: r) := by
      simp [List.intercalate]
    have h2 : ((c :: d :: cs).mapM fun c => name (tok c)) = (name (tok c)).bind fun x =>
        ((d :: cs).mapM fun c => name (tok c)).map (x :: ·) := by
      rw [List.mapM_cons]
      cases name (tok c) with
      | none => rfl
      | some x => cases ((d :: cs).mapM fun c => name (tok c)) <;> rfl
    rw [this, columns, ih, h2]
    cases name (tok c) with
    | none => rfl
    | some x => cases ((d :: cs).mapM fun c => name (tok c)) <;> rfl

theorem rest_toks (name : Tok → Option Str) (tok : Str → Tok) (table : Str) (cols : List Str) (h : cols ≠ [])
    (r : List Tok) (hr : ended r = true) :
    rest name table (.sym '(' :: (List.intercalate [.sym ','] (cols.map fun c => [tok c]) ++ .sym ')' :: r)) =
      (cols.mapM fun c => name (tok c)).map (table, ·) := by
  rw [rest, columns_toks name tok r cols h]
  cases (cols.mapM fun c => name (tok c)) with
  | none => rfl
  | some cs => simp [hr]

theorem mapM_quoted (d : Dialect) (reserved : Str → Bool) (cols : List Str) (h : ∀ w ∈ cols, w ≠ []) :
    (cols.mapM fun c => ident d reserved (.quoted c)) = some cols := by
  induction cols with
  | nil => rfl
  | cons c cs ih =>
    rw [List.mapM_cons, ih (fun w hw => h w (by simp [hw]))]
    simp [ident, h c (by simp)]

theorem ident_word_iff (d : Dialect) (reserved : Str → Bool) (w : Str) :
    ident d reserved (.word w) = some w ↔ Ordinary d reserved w := by
  unfold ident Ordinary
  cases h1 : reserved (lower w) <;> cases h2 : startsWithDigit w <;> simp [h1, h2]

theorem mapM_word_iff (d : Dialect) (reserved : Str → Bool) (cols : List Str) :
    (cols.mapM fun c => ident d reserved (.word c)) = some cols ↔ ∀ w ∈ cols, Ordinary d reserved w := by
  induction cols with
  | nil => simp
  | cons c cs ih =>
    rw [List.mapM_cons]
    constructor
    · intro h
      cases h1 : ident d reserved (.word c) with
      | none => rw [h1] at h; cases h
      | some x =>
        cases h2 : (cs.mapM fun c => ident d reserved (.word c)) with
        | none => rw [h1, h2] at h; cases h
        | some xs =>
          rw [h1, h2] at h
          simp only [Option.pure_def, Option.bind_eq_bind, Option.bind_some, Option.some.injEq,
            List.cons.injEq] at h
          obtain ⟨rfl, rfl⟩ := h
          intro w hw
          rcases List.mem_cons.mp hw with rfl | hw
          · exact (ident_word_iff d reserved _).mp h1
          · exact ih.mp h2 w hw
    · intro h
      rw [(ident_word_iff d reserved c).mpr (h c (by simp)), ih.mpr (fun w hw => h w (by simp [hw]))]
      rfl

theorem word_of_ident {w : Str} (h : Ident w) : w ≠ [] ∧ ∀ c ∈ w, Regex.isWord c = true :=
  ⟨h.1, fun c hc => (isWord_iff c).mpr (h.2 c hc)⟩

theorem plain_names (it : IndexTarget) (h : Plain it) : ∀ w ∈ it.columns.map (·.name), Ident w := by
  intro w hw
  obtain ⟨c, hc, rfl⟩ := List.mem_map.mp hw
  exact h.cols c hc

theorem lex_postgres (it : IndexTarget) (h : Plain it) :
    lex '"' (postgresSQL it) = some ([.word "CREATE".toList, .word "INDEX".toList, .word "ON".toList,
      .word it.tableName, .sym '('] ++ wordCols (it.columns.map (·.name)) ++ [.sym ')', .sym ';']) := by
  have ht := word_of_ident h.table
  have hstmt : postgresSQL it = "CREATE".toList ++ ' ' :: ("INDEX".toList ++ ' ' :: ("ON".toList ++ ' ' ::
      (it.tableName ++ ' ' :: '(' :: (joinWith [',', ' '] (it.columns.map (·.name)) ++ ')' :: [';'])))) := by
    unfold postgresSQL columnList
    simp
  rw [hstmt, lex, kw '"' "CREATE".toList _ (by decide) (by decide) (by decide),
    kw '"' "INDEX".toList _ (by decide) (by decide) (by decide), kw '"' "ON".toList _ (by decide) (by decide) (by decide),
    lexGo_out_word_space _ _ _ ht.1 ht.2 (by decide) (by decide), lexGo_out_sym _ '(' _ (by decide) (by decide) (by decide),
    lex_wordCols '"' _ _ (by simpa using h.nonempty) (fun w hw => word_of_ident (plain_names it h w hw)) (by decide)
      (by decide) (by decide) (by decide)]
  simp [lexGo, start]
  decide

theorem lex_mysql (it : IndexTarget) (h : Plain it) :
    lex '`' (mysqlSQL it) = some ([.word "ALTER".toList, .word "TABLE".toList, .word it.tableName,
      .word "ADD".toList, .word "INDEX".toList, .sym '('] ++ wordCols (it.columns.map (·.name)) ++
      [.sym ')', .sym ';']) := by
  have ht := word_of_ident h.table
  have hstmt : mysqlSQL it = "ALTER".toList ++ ' ' :: ("TABLE".toList ++ ' ' :: (it.tableName ++ ' ' ::
      ("ADD".toList ++ ' ' :: ("INDEX".toList ++ ' ' :: '(' ::
        (joinWith [',', ' '] (it.columns.map (·.name)) ++ ')' :: [';']))))) := by
    unfold mysqlSQL columnList
    simp
  rw [hstmt, lex, kw '`' "ALTER".toList _ (by decide) (by decide) (by decide),
    kw '`' "TABLE".toList _ (by decide) (by decide) (by decide),
    lexGo_out_word_space _ _ _ ht.1 ht.2 (by decide) (by decide),
    kw '`' "ADD".toList _ (by decide) (by decide) (by decide), kw '`' "INDEX".toList _ (by decide) (by decide) (by decide),
    lexGo_out_sym _ '(' _ (by decide) (by decide) (by decide),
    lex_wordCols '`' _ _ (by simpa using h.nonempty) (fun w hw => word_of_ident (plain_names it h w hw)) (by decide)
      (by decide) (by decide) (by decide)]
  simp [lexGo, start]
  decide

/-- what the shown statement creates, name by name -/
theorem shown_postgres (reserved : Str → Bool) (it : IndexTarget) (h : Plain it) :
    creates .postgres reserved (postgresSQL it) =
      (ident .postgres reserved (.word it.tableName)).bind fun t =>
        ((it.columns.map (·.name)).mapM fun c => ident .postgres reserved (.word c)).map (t, ·) := by
  have hk : isKw ['o', 'n'] (.word "ON".toList) = true := by decide
  have hk1 : isKw ['c', 'r', 'e', 'a', 't', 'e'] (.word "CREATE".toList) = true := by decide
  have hk2 : isKw ['i', 'n', 'd', 'e', 'x'] (.word "INDEX".toList) = true := by decide
  unfold creates
  rw [show Dialect.postgres.quote = '"' from rfl, lex_postgres it h]
  simp only [Option.bind_some, List.cons_append, List.nil_append, createIndex, hk, hk1, hk2, Bool.and_self, if_true]
  congr 1
  funext t
  exact rest_toks _ Tok.word t _ (by simpa using h.nonempty) [.sym ';'] rfl

theorem shown_mysql (reserved : Str → Bool) (it : IndexTarget) (h : Plain it) :
    creates .mysql reserved (mysqlSQL it) =
      (ident .mysql reserved (.word it.tableName)).bind fun t =>
        ((it.columns.map (·.name)).mapM fun c => ident .mysql reserved (.word c)).map (t, ·) := by
  have hk1 : isKw ['a', 'l', 't', 'e', 'r'] (.word "ALTER".toList) = true := by decide
  have hk2 : isKw ['t', 'a', 'b', 'l', 'e'] (.word "TABLE".toList) = true := by decide
  have hk3 : isKw ['a', 'd', 'd'] (.word "ADD".toList) = true := by decide
  have hk4 : isKw ['i', 'n', 'd', 'e', 'x'] (.word "INDEX".toList) = true := by decide
  unfold creates
  rw [show Dialect.mysql.quote = '`' from rfl, lex_mysql it h]
  simp only [Option.bind_some, List.cons_append, List.nil_append, alterAdd, hk1, hk2, hk3, hk4, Bool.and_self, if_true]
  congr 1
  funext t
  exact rest_toks _ Tok.word t _ (by simpa using h.nonempty) [.sym ';'] rfl

theorem columnToks_eq (cols : List Str) :
    columnToks cols = List.intercalate [.sym ','] (cols.map fun c => [Tok.quoted c]) := rfl

/-- the examined statement of PostgreSQL creates the index asked for, reserved words or not -/
theorem examined_postgres (reserved : Str → Bool) (name : Str) (it : IndexTarget) (h : Plain it) (hn : Ident name) :
    creates .postgres reserved (postgresCreate name it) = some (index it) := by
  have hk1 : isKw ['c', 'r', 'e', 'a', 't', 'e'] (.word "CREATE".toList) = true := by decide
  have hk2 : isKw ['i', 'n', 'd', 'e', 'x'] (.word "INDEX".toList) = true := by decide
  have hk : isKw ['o', 'n'] (.word "ON".toList) = true := by decide
  have hk' : isKw ['o', 'n'] (.quoted name) = false := rfl
  have hq : ident .postgres reserved (.quoted name) = some name := by simp [ident, hn.1]
  have ht : ident .postgres reserved (.quoted it.tableName) = some it.tableName := by simp [ident, h.table.1]
  unfold creates
  rw [show Dialect.postgres.quote = '"' from rfl,
    C06_postgres_create name it (plain_isSafe it h) h.nonempty hn]
  simp only [Option.bind_some, List.cons_append, List.nil_append, createIndex, hk, hk', hk1, hk2, Bool.and_self, if_true,
    Bool.false_eq_true, if_false, hq, ht, columnToks_eq]
  rw [rest_toks _ Tok.quoted it.tableName _ (by simpa using h.nonempty) [] rfl,
    mapM_quoted _ _ _ (fun w hw => (plain_names it h w hw).1)]
  rfl

theorem examined_mysql (reserved : Str → Bool) (name : Str) (it : IndexTarget) (h : Plain it) (hn : Ident name) :
    creates .mysql reserved (mysqlCreate name it) = some (index it) := by
  have hk1 : isKw ['a', 'l', 't', 'e', 'r'] (.word "ALTER".toList) = true := by decide
  have hk2 : isKw ['t', 'a', 'b', 'l', 'e'] (.word "TABLE".toList) = true := by decide
  have hk3 : isKw ['a', 'd', 'd'] (.word "ADD".toList) = true := by decide
  have hk4 : isKw ['i', 'n', 'd', 'e', 'x'] (.word "INDEX".toList) = true := by decide
  have hq : ident .mysql reserved (.quoted name) = some name := by simp [ident, hn.1]
  have ht : ident .mysql reserved (.quoted it.tableName) = some it.tableName := by simp [ident, h.table.1]
  unfold creates
  rw [show Dialect.mysql.quote = '`' from rfl,
    C06_mysql_create name it (plain_isSafe it h) h.nonempty hn]
  simp only [Option.bind_some, List.cons_append, List.nil_append, alterAdd, hk1, hk2, hk3, hk4, Bool.and_self, if_true,
    hq, ht, columnToks_eq]
  rw [rest_toks _ Tok.quoted it.tableName _ (by simpa using h.nonempty) [] rfl,
    mapM_quoted _ _ _ (fun w hw => (plain_names it h w hw).1)]
  rfl

theorem bind_index_iff (d : Dialect) (reserved : Str → Bool) (it : IndexTarget) :
    ((ident d reserved (.word it.tableName)).bind fun t =>
        ((it.columns.map (·.name)).mapM fun c => ident d reserved (.word c)).map (t, ·)) = some (index it) ↔
      Ordinary d reserved it.tableName ∧ ∀ w ∈ it.columns.map (·.name), Ordinary d reserved w := by
  rw [← ident_word_iff, ← mapM_word_iff]
  cases ident d reserved (.word it.tableName) with
  | none => simp
  | some t =>
    cases ((it.columns.map (·.name)).mapM fun c => ident d reserved (.word c)) with
    | none => simp
    | some cs => simp [index]

/-- C80 (partial): on every page the statement shown creates the index that was examined if and only if table
and columns have ordinary names.  Missing: other names, which the examined statement quotes and the shown one
does not. -/
theorem C80_shown_partial (page : Page) (reserved : Str → Bool) (name : Str) (it : IndexTarget) (h : Plain it)
    (hn : Ident name) :
    creates page.dialect reserved (page.examined name it) = some (index it) ∧
    (creates page.dialect reserved (page.sql it) = some (index it) ↔
      Ordinary page.dialect reserved it.tableName ∧
        ∀ w ∈ it.columns.map (·.name), Ordinary page.dialect reserved w) := by
  cases page
  · exact ⟨examined_mysql reserved name it h hn, by
      rw [show Page.mysql.sql it = mysqlSQL it from rfl, show Page.mysql.dialect = .mysql from rfl,
        shown_mysql reserved it h, bind_index_iff]⟩
  · exact ⟨examined_postgres reserved name it h hn, by
      rw [show Page.postgres.sql it = postgresSQL it from rfl, show Page.postgres.dialect = .postgres from rfl,
        shown_postgres reserved it h, bind_index_iff]⟩
  · exact ⟨examined_postgres reserved name it h hn, by
      rw [show Page.hasura.sql it = postgresSQL it from rfl, show Page.hasura.dialect = .postgres from rfl,
        shown_postgres reserved it h, bind_index_iff]⟩

/-- a few reserved words -/
def someReserved (w : Str) : Bool := w ∈ ["order".toList, "on".toList, "table".toList, "select".toList]

/-- C80 fails for PostgreSQL: for a column `userId` the statement shown is about a column `userid`, and for
a table `order` it is refused; both are examined. -/
theorem C80_postgres_fails :
    (let it : IndexTarget := ⟨"posts".toList, [⟨"userId".toList⟩]⟩
     creates .postgres someReserved (postgresSQL it) = some ("posts".toList, ["userid".toList]) ∧
     creates .postgres someReserved (postgresCreate "i".toList it) = some ("posts".toList, ["userId".toList])) ∧
    (let it : IndexTarget := ⟨"order".toList, [⟨"id".toList⟩]⟩
     creates .postgres someReserved (postgresSQL it) = none ∧
     creates .postgres someReserved (postgresCreate "i".toList it) = some ("order".toList, ["id".toList])) := by
  decide +kernel

/-- C80 fails for MySQL with reserved words. -/
theorem C80_mysql_fails :
    let it : IndexTarget := ⟨"order".toList, [⟨"id".toList⟩]⟩
    creates .mysql someReserved (mysqlSQL it) = none ∧
    creates .mysql someReserved (mysqlCreate "i".toList it) = some ("order".toList, ["id".toList]) := by
  decide +kernel

/-! ## Proofs: the command for Hasura -/

variable (env : Str → Str)

theorem sh_bare (w : Str) (h : ∀ c ∈ w, Shell.isPlain c = true) (ws : List Str) (a : Str) :
    w.foldl (shStep env) (ws, .bare a) = (ws, .bare (a ++ w)) := by
  induction w generalizing a with
  | nil => simp
  | cons c w ih =>
    obtain ⟨h1, h2, h3, h4, h5, h6, h7⟩ := Shell.plain_special c (h c (by simp))
    have h8 : c ≠ '\'' := by rintro rfl; exact absurd (h '\'' (by simp)) (by decide)
    rw [List.foldl_cons]
    have : shStep env (ws, .bare a) c = (ws, .bare (a ++ [c])) := by
      simp [shStep, h1, h2, h3, h8, h c (by simp)]
    rw [this, ih (fun x hx => h x (by simp [hx]))]
    simp

theorem sh_dq (w : Str) (h : ∀ c ∈ w, Shell.isDq c = false) (ws : List Str) (a : Str) :
    w.foldl (shStep env) (ws, .dq a) = (ws, .dq (a ++ w)) := by
  induction w generalizing a with
  | nil => simp
  | cons c w ih =>
    have hc := h c (by simp)
    have hne : c ≠ '"' ∧ c ≠ '$' ∧ c ≠ '`' ∧ c ≠ '\\' := by
      refine ⟨?_, ?_, ?_, ?_⟩ <;> rintro rfl <;> revert hc <;> decide
    rw [List.foldl_cons]
    have : shStep env (ws, .dq a) c = (ws, .dq (a ++ [c])) := by simp [shStep, hne]
    rw [this, ih (fun x hx => h x (by simp [hx]))]
    simp

theorem sh_var (w : Str) (h : ∀ c ∈ w, Regex.isWord c = true) (ws : List Str) (a n : Str) :
    w.foldl (shStep env) (ws, .var a n) = (ws, .var a (n ++ w)) := by
  induction w generalizing n with
  | nil => simp
  | cons c w ih =>
    have hc := h c (by simp)
    have hne : c ≠ '}' := by rintro rfl; revert hc; decide
    rw [List.foldl_cons]
    have : shStep env (ws, .var a n) c = (ws, .var a (n ++ [c])) := by simp [shStep, hne, hc]
    rw [this, ih (fun x hx => h x (by simp [hx]))]
    simp

theorem sh_sq (w : Str) (h : '\'' ∉ w) (ws : List Str) (a : Str) :
    w.foldl (shStep env) (ws, .sq a) = (ws, .sq (a ++ w)) := by
  induction w generalizing a with
  | nil => simp
  | cons c w ih =>
    have hne : c ≠ '\'' := by rintro rfl; exact h (by simp)
    rw [List.foldl_cons]
    have : shStep env (ws, .sq a) c = (ws, .sq (a ++ [c])) := by simp [shStep, hne]
    rw [this, ih (fun hm => h (by simp [hm]))]
    simp

/-- every character of the shown SQL -/
theorem sql_chars (it : IndexTarget) (h : Plain it) (c : Char) (hc : c ∈ postgresSQL it) :
    Regex.isWord c = true ∨ c ∈ [' ', '(', ')', ',', ';'] := by
  have hj : ∀ (l : List Str), (∀ w ∈ l, Ident w) → ∀ c ∈ joinWith [',', ' '] l,
      Regex.isWord c = true ∨ c ∈ [' ', '(', ')', ',', ';'] := by
    intro l
    induction l with
    | nil => intro _ c hc; simp [joinWith] at hc
    | cons w ws ih =>
      intro hw c hc
      have h1 := (word_of_ident (hw w (by simp))).2
      cases ws with
      | nil => exact Or.inl (h1 c (by simpa [joinWith] using hc))
      | cons v vs =>
        simp only [joinWith, List.mem_append, List.mem_cons, List.not_mem_nil, or_false] at hc
        rcases hc with (hc | hc | hc) | hc
        · exact Or.inl (h1 c hc)
        · right; simp [hc]
        · right; simp [hc]
        · exact ih (fun x hx => hw x (by simp [hx])) c (by simpa [joinWith] using hc)
  have hconst : ∀ s : Str, s.all (fun c => Regex.isWord c || [' ', '(', ')', ',', ';'].contains c) = true → ∀ c ∈ s,
      Regex.isWord c = true ∨ c ∈ [' ', '(', ')', ',', ';'] := by
    intro s hs c hc
    have := List.all_eq_true.mp hs c hc
    simpa using this
  unfold postgresSQL columnList at hc
  simp only [List.mem_append] at hc
  rcases hc with (((hc | hc) | hc) | hc) | hc
  · exact hconst _ (by decide +kernel) c hc
  · exact Or.inl ((word_of_ident h.table).2 c hc)
  · exact hconst _ (by decide +kernel) c hc
  · exact hj _ (plain_names it h) c hc
  · exact hconst _ (by decide +kernel) c hc

theorem sh_word (w : Str) (h : Shell.Bare w) (ws : List Str) (r : Str) :
    (w ++ ' ' :: r).foldl (shStep env) (ws, .between) = r.foldl (shStep env) (ws ++ [w], .between) := by
  cases w with
  | nil => exact absurd rfl h.1
  | cons c w =>
    obtain ⟨h1, h2, h3, h4, h5, h6, h7⟩ := Shell.plain_special c (h.2 c (by simp))
    have h8 : c ≠ '\'' := by rintro rfl; exact absurd (h.2 '\'' (by simp)) (by decide)
    have hs : shStep env (ws, .between) c = (ws, .bare [c]) := by
      simp [shStep, h1, h2, h3, h8, h.2 c (by simp)]
    rw [List.cons_append, List.foldl_cons, hs, List.foldl_append,
      sh_bare env w (fun x hx => h.2 x (by simp [hx])), List.foldl_cons]
    rfl

theorem sh_space (r : Str) (ws : List Str) :
    (' ' :: r).foldl (shStep env) (ws, .between) = r.foldl (shStep env) (ws, .between) := rfl

/-- a word in single quotes -/
theorem sh_single (w : Str) (h : '\'' ∉ w) (ws : List Str) (r : Str) :
    ('\'' :: w ++ '\'' :: r).foldl (shStep env) (ws, .between) = r.foldl (shStep env) (ws, .bare w) := by
  rw [List.cons_append, List.foldl_cons]
  change List.foldl (shStep env) (ws, .sq []) (w ++ '\'' :: r) = _
  rw [List.foldl_append, sh_sq env w h, List.foldl_cons]
  rfl

/-- a word in double quotes with a parameter -/
theorem sh_double (w n v : Str) (hw : ∀ c ∈ w, Shell.isDq c = false) (hn : ∀ c ∈ n, Regex.isWord c = true)
    (hv : ∀ c ∈ v, Shell.isDq c = false) (ws : List Str) (r : Str) :
    ('"' :: w ++ '$' :: '{' :: n ++ '}' :: v ++ '"' :: r).foldl (shStep env) (ws, .between) =
      r.foldl (shStep env) (ws, .bare (w ++ env n ++ v)) := by
  have e : '"' :: w ++ '$' :: '{' :: n ++ '}' :: v ++ '"' :: r =
      '"' :: (w ++ '$' :: '{' :: (n ++ '}' :: (v ++ '"' :: r))) := by simp
  rw [e, List.foldl_cons]
  change List.foldl (shStep env) (ws, .dq []) _ = _
  rw [List.foldl_append, sh_dq env w hw, List.foldl_cons, List.foldl_cons]
  change List.foldl (shStep env) (ws, .var ([] ++ w) []) _ = _
  rw [List.foldl_append, sh_var env n hn, List.foldl_cons]
  change List.foldl (shStep env) (ws, .dq ([] ++ w ++ env ([] ++ n))) _ = _
  rw [List.foldl_append, sh_dq env v hv, List.foldl_cons]
  simp only [List.nil_append]
  rfl

theorem body_no_quote (it : IndexTarget) (h : Plain it) : '\'' ∉ curlBody (postgresSQL it) := by
  intro hm
  unfold curlBody at hm
  simp only [List.append_assoc, List.cons_append, List.mem_append, List.mem_cons] at hm
  rcases hm with hm | hm | hm | hm | hm
  · revert hm; decide +kernel
  · revert hm; decide
  · rcases sql_chars it h _ hm with hm | hm <;> (revert hm; decide)
  · revert hm; decide
  · revert hm; decide +kernel

/-- C80: pasted into a shell, the command of the Hasura page posts to the address in `HASURA_URL` with the
secret in `HASURA_ADMIN_SECRET`. -/
theorem C80_curl (it : IndexTarget) (h : Plain it) :
    shellWords env (curl it) = some ["curl".toList, "--request".toList, "POST".toList, "--url".toList,
      env "HASURA_URL".toList ++ "/v2/query".toList, "--header".toList, "Content-Type: application/json".toList,
      "--header".toList, "x-hasura-admin-secret: ".toList ++ env "HASURA_ADMIN_SECRET".toList,
      "--data".toList, curlBody (postgresSQL it)] := by
  have e1 : curlHead = "curl".toList ++ ' ' :: ("--request".toList ++ ' ' :: ("POST".toList ++ ' ' :: ' ' :: ' ' ::
      ("--url".toList ++ ' ' :: []))) := by decide +kernel
  have e2 : curlHeader = ' ' :: ' ' :: ' ' :: ("--header".toList ++ ' ' :: []) := by decide +kernel
  have e3 : curlData = ' ' :: ' ' :: ' ' :: ("--data".toList ++ ' ' :: []) := by decide +kernel
  have b : ∀ w : Str, (w.all Shell.isPlain && !w.isEmpty) = true → Shell.Bare w := by
    intro w hw
    simp only [Bool.and_eq_true, List.all_eq_true, Bool.not_eq_true', List.isEmpty_eq_false_iff] at hw
    exact ⟨hw.2, hw.1⟩
  have d : ∀ w : Str, w.all (fun c => !Shell.isDq c) = true → ∀ c ∈ w, Shell.isDq c = false := by
    intro w hw c hc
    simpa using List.all_eq_true.mp hw c hc
  have v : ∀ w : Str, w.all Regex.isWord = true → ∀ c ∈ w, Regex.isWord c = true :=
    fun w hw c hc => List.all_eq_true.mp hw c hc
  have hcurl : curl it = "curl".toList ++ ' ' :: ("--request".toList ++ ' ' :: ("POST".toList ++ ' ' :: ' ' :: ' ' ::
      ("--url".toList ++ ' ' :: ('"' :: [] ++ '$' :: '{' :: curlUrl ++ '}' :: curlPath ++ '"' ::
        (' ' :: ' ' :: ' ' :: ("--header".toList ++ ' ' :: ('\'' :: curlType ++ '\'' ::
          (' ' :: ' ' :: ' ' :: ("--header".toList ++ ' ' :: ('"' :: curlSecretName ++ '$' :: '{' :: curlSecret ++ '}' ::
            [] ++ '"' :: (' ' :: ' ' :: ' ' :: ("--data".toList ++ ' ' ::
              ('\'' :: curlBody (postgresSQL it) ++ '\'' :: []))))))))))))) := by
    unfold curl
    rw [e1, e2, e3]
    simp only [List.append_assoc, List.cons_append, List.nil_append]
  have sp : ∀ (ws : List Str) (a r : Str), (' ' :: r).foldl (shStep env) (ws, .bare a) =
      r.foldl (shStep env) (ws ++ [a], .between) := fun _ _ _ => rfl
  unfold shellWords
  rw [hcurl, sh_word env _ (b _ (by decide +kernel)), sh_word env _ (b _ (by decide +kernel)),
    sh_word env _ (b _ (by decide +kernel)), sh_space, sh_space, sh_word env _ (b _ (by decide +kernel)),
    sh_double env [] curlUrl curlPath (by simp) (v _ (by decide +kernel)) (d _ (by decide +kernel)), sp, sh_space, sh_space,
    sh_word env _ (b _ (by decide +kernel)), sh_single env _ (by decide +kernel), sp, sh_space, sh_space,
    sh_word env _ (b _ (by decide +kernel)),
    sh_double env curlSecretName curlSecret [] (d _ (by decide +kernel)) (v _ (by decide +kernel)) (by simp), sp, sh_space,
    sh_space, sh_word env _ (b _ (by decide +kernel)), sh_single env _ (body_no_quote it h)]
  have c1 : curlUrl = "HASURA_URL".toList := by unfold curlUrl; rfl
  have c2 : curlPath = "/v2/query".toList := by unfold curlPath; rfl
  have c3 : curlType = "Content-Type: application/json".toList := by unfold curlType; rfl
  have c4 : curlSecretName = "x-hasura-admin-secret: ".toList := by unfold curlSecretName; rfl
  have c5 : curlSecret = "HASURA_ADMIN_SECRET".toList := by unfold curlSecret; rfl
  rw [c1, c2, c3, c4, c5]
  simp only [List.nil_append, List.append_nil, List.cons_append, List.foldl_nil, shEnd]

theorem j_str (w : Str) (h : ∀ c ∈ w, c ≠ '"' ∧ c ≠ '\\' ∧ ¬ c.toNat < 32) (ts : List JTok) (a : Str) :
    w.foldl jStep (ts, .str a) = (ts, .str (a ++ w)) := by
  induction w generalizing a with
  | nil => simp
  | cons c w ih =>
    obtain ⟨h1, h2, h3⟩ := h c (by simp)
    rw [List.foldl_cons]
    have : jStep (ts, .str a) c = (ts, .str (a ++ [c])) := by simp [jStep, h1, h2, h3]
    rw [this, ih (fun x hx => h x (by simp [hx]))]
    simp

theorem word_ge (c : Char) (h : Regex.isWord c = true) : ¬ c.toNat < 32 := by
  intro hlt
  have h0 : ¬ '0' ≤ c := fun hle => by
    have : '0'.toNat ≤ c.toNat := hle
    have e : '0'.toNat = 48 := rfl
    omega
  have hA : ¬ 'A' ≤ c := fun hle => by
    have : 'A'.toNat ≤ c.toNat := hle
    have e : 'A'.toNat = 65 := rfl
    omega
  have ha : ¬ 'a' ≤ c := fun hle => by
    have : 'a'.toNat ≤ c.toNat := hle
    have e : 'a'.toNat = 97 := rfl
    omega
  have hu : c ≠ '_' := by rintro rfl; exact absurd hlt (by decide)
  simp [Regex.isWord, h0, hA, ha, hu] at h

/-- C80: the data of this command is a JSON object asking Hasura to run the statement shown, as
`Client.RunRawSQL` does. -/
theorem C80_curl_body (it : IndexTarget) (h : Plain it) :
    jsonToks (curlBody (postgresSQL it)) = some [.sym '{', .str "type".toList, .sym ':', .str "run_sql".toList,
      .sym ',', .str "args".toList, .sym ':', .sym '{', .str "sql".toList, .sym ':', .str (postgresSQL it),
      .sym '}', .sym '}'] := by
  have hc : ∀ c ∈ postgresSQL it, c ≠ '"' ∧ c ≠ '\\' ∧ ¬ c.toNat < 32 := by
    intro c hc
    rcases sql_chars it h c hc with hw | hw
    · refine ⟨?_, ?_, word_ge c hw⟩ <;> rintro rfl <;> revert hw <;> decide
    · simp only [List.mem_cons, List.not_mem_nil, or_false] at hw
      rcases hw with rfl | rfl | rfl | rfl | rfl <;> decide
  have h1 : (bodyHead ++ ['"']).foldl jStep ([], .out) = ([.sym '{', .str "type".toList, .sym ':', .str "run_sql".toList,
      .sym ',', .str "args".toList, .sym ':', .sym '{', .str "sql".toList, .sym ':'], .str []) := by decide +kernel
  have h2 : ∀ ts, bodyEnd.foldl jStep (ts, .out) = (ts ++ [.sym '}', .sym '}'], .out) := by
    intro ts
    have : bodyEnd = ['\n', '\t', '}', '\n', '}'] := by decide +kernel
    rw [this]
    simp [jStep]
  have e : curlBody (postgresSQL it) = (bodyHead ++ ['"']) ++ (postgresSQL it ++ '"' :: bodyEnd) := by
    simp [curlBody]
  unfold jsonToks
  rw [e, List.foldl_append, h1, List.foldl_append, j_str _ hc, List.foldl_cons]
  have h3 : ∀ ts, jStep (ts, .str ([] ++ postgresSQL it)) '"' = (ts ++ [.str (postgresSQL it)], .out) := fun _ => rfl
  rw [h3, h2]
  rfl

/-! ## The table -/

/-- `Array.prototype.sort` with `(a, b) => a.executionTimeMillis - b.executionTimeMillis` -/
def SortsTimes (sort : List IndexResult → List IndexResult) : Prop :=
  ∀ l, (sort l).Perm l ∧ (sort l).Pairwise (fun a b => a.millis ≤ b.millis)

/-- how a row names an index: its table, and its columns in order -/
def rowTitle (it : IndexTarget) : Str :=
  "Table=".toList ++ it.tableName ++ " / Column=".toList ++ (", ".toList).intercalate (it.columns.map (·.name))

theorem describe_eq (it : IndexTarget) : describe it = rowTitle it := by
  unfold describe rowTitle columnList
  rw [Index.joinWith_eq_intercalate]
  rfl

/-- C80: the table below a successful examination has one row per target, fastest first.  Every row shows,
beside the statement for a target, the time that the query took while the index of this very target
existed. -/
theorem C80_table (page : Page) (sort : List IndexResult → List IndexResult) (hsort : SortsTimes sort)
    (env : Env) (secs : Nat) (its : List IndexTarget) (r : Result) (h : (run env secs its).1 = .ok r) :
    ((tableRows page sort r).map (·.sql)).Perm (its.map page.sql) ∧
    (tableRows page sort r).Pairwise (fun a b => a.millis ≤ b.millis) ∧
    ∀ row ∈ tableRows page sort r, ∃ it ∈ its, row.sql = page.sql it ∧ row.columns = rowTitle it ∧
      ∃ pre n v d post, (run env secs its).2 =
        pre ++ [⟨.create n it, .ok v⟩, ⟨.execute, .ok row.millis⟩, ⟨.drop n it, .ok d⟩] ++ post := by
  obtain ⟨h1, _⟩ := C09_result_faithful env secs its r h
  obtain ⟨names, hl, h2⟩ := C09_success_history env secs its r h
  obtain ⟨hp, hs⟩ := hsort r.indexResults
  refine ⟨?_, ?_, ?_⟩
  · rw [← h1]
    simp only [tableRows, List.map_map]
    exact hp.map _
  · exact List.pairwise_map.mpr hs
  · intro row hrow
    obtain ⟨x, hx, rfl⟩ := List.mem_map.mp hrow
    have hx' := hp.mem_iff.mp hx
    refine ⟨x.target, by rw [← h1]; exact List.mem_map_of_mem hx', rfl, describe_eq _, ?_⟩
    obtain ⟨k, hk, e⟩ := List.mem_iff_getElem.mp hx'
    have hz : (names[k]'(by omega), x) ∈ names.zip r.indexResults := by
      rw [List.mem_iff_getElem]
      exact ⟨k, by simp; omega, by simp [e]⟩
    obtain ⟨a, b, hab⟩ := List.append_of_mem hz
    rw [h2, hab]
    exact ⟨⟨.execute, .ok r.origMillis⟩ :: a.flatMap _, _, _, _, b.flatMap _, by
      simp only [List.flatMap_append, List.flatMap_cons, List.cons_append, List.append_assoc, List.nil_append]; rfl⟩

/-! ## Examples -/

/-- a target with ordinary names -/
def usersTarget : IndexTarget := ⟨"users".toList, [⟨"last_name".toList⟩, ⟨"id".toList⟩]⟩

example : Plain usersTarget := by
  refine ⟨⟨by decide, by unfold WordChar; decide +kernel⟩, by decide, ?_⟩
  intro c hc
  simp only [usersTarget, List.mem_cons, List.not_mem_nil, or_false] at hc
  rcases hc with rfl | rfl <;> exact ⟨by decide, by unfold WordChar; decide +kernel⟩

example : creates .postgres someReserved (postgresSQL usersTarget) = some (index usersTarget) ∧
    creates .mysql someReserved (mysqlSQL usersTarget) = some (index usersTarget) := by decide +kernel

example : SortsTimes (fun l => l.insertionSort (fun a b => a.millis ≤ b.millis)) := by
  intro l
  have : Std.Total (fun a b : IndexResult => a.millis ≤ b.millis) := ⟨fun a b => Int.le_total _ _⟩
  have : IsTrans IndexResult (fun a b => a.millis ≤ b.millis) := ⟨fun a b c => Int.le_trans⟩
  exact ⟨List.perm_insertionSort _ l, List.pairwise_insertionSort _ l⟩

end Verif.Client.Ddl
