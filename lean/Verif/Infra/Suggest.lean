import Verif.Infra.FetchEx
/-!
# C98 with C83, C84 and C85: suggestions over a server

The lookups of the suggesters are those of `Verif/Infra/Fetch.lean`: what is left open is how the server orders rows
and whether it answers.
-/
namespace Verif.Infra.Fetch
open Verif.Sql Verif.Sql.Query Verif.Infra.Hasura Verif.Index

/-- the suggester of PostgreSQL (`/repo/cmd/db/suggest/postgres.go:72`) on a connection: the lookups send the
texts above; the rest is given -/
def pgEnv {E : Type} (ask : Str → List Str → Except E (List Row)) (schema : Str)
    (parse : Str → Except (Err E) (List PgScope.Stmt)) (orders : PgScope.Orders) (norm : Str → Str) (fuel : Nat)
    (strict : Bool) (fold : Char → Char) : Cmd.PgEnv PgColumn (Err E) where
  parse := parse
  orders := orders
  norm := norm
  fuel := fuel
  cols := pgGetTableColumns ask schema
  f c := (c.tableName, c.columnName, c.isPK)
  strict := strict
  select := pgGetIndexes ask schema
  fold := fold

/-- the suggester of MySQL (`/repo/cmd/db/suggest/mysql.go:72`) on a connection -/
def myEnv {E : Type} (ask : Str → List Str → Except E (List Row)) (schema : Str)
    (parse : Str → Except (Err E) (List MyScope.Stmt)) (orders : MyScope.Orders) (norm : Str → Str)
    (fold : Char → Char) : Cmd.MyEnv Schemas.MysqlColumn (Err E) where
  parse := parse
  orders := orders
  norm := norm
  cols := myGetTableColumns ask schema
  f := Schemas.mysqlRow
  select := myGetIndexes ask schema
  fold := fold

/-- the suggester of Hasura (`/repo/cmd/db/suggest/hasura/postgres.go:145-158`) on a server: the lookups send the
texts of `Verif/Infra/Hasura.lean`.  A crash of a lookup counts as the error `none` here. -/
def hasuraEnv (scan : Str → Except Hasura.Err (List Str)) (run : RunSQLArgs → Except Hasura.Err (List (List Str)))
    (schema : Str) (parse : Str → Except (Option Hasura.Err) (List PgScope.Stmt)) (orders : PgScope.Orders)
    (norm : Str → Str) (fuel : Nat) (fold : Char → Char) : Cmd.PgEnv ColumnInfo (Option Hasura.Err) where
  parse := parse
  orders := orders
  norm := norm
  fuel := fuel
  cols names := match (getTableColumns run schema names).1 with
    | none => .error none
    | some (.error e) => .error (some e)
    | some (.ok infos) => .ok infos
  f c := (c.tableName, c.columnName, c.isPK)
  strict := false
  select names := match (getIndexes scan run schema names).1 with
    | none => .error none
    | some (.error e) => .error (some e)
    | some (.ok infos) => .ok infos
  fold := fold

section pg
open Cmd Cmd.Catalogue
variable {E : Type} (le : Val → Val → Prop) (cat : Catalogue) (keyword : Str → Bool) (expr : Nat → Nat → Str)
  (ask : Str → List Str → Except E (List Row)) (hix : OneIndex cat) (hask : Faithful le (pgDb cat keyword expr) ask)
  (hok : Ok cat) (schema : Str) (parse : Str → Except (Err E) (List PgScope.Stmt)) (orders : PgScope.Orders)
  (ho : orders.Ok) (norm : Str → Str) (fuel : Nat) (strict : Bool) (fold : Char → Char)

include hix hask hok ho in
/-- C98: over a server with this catalogue, what `gr db suggest postgres` suggests for a query consists of columns
of the tables that the query mentions. -/
theorem C98_suggest_postgres_sound (query : Str) (s : PgScope.Select) (hp : parse query = .ok [.select s])
    (hpl : PgScope.Spec.Plain s) (hf : PgScope.Spec.Fresh s) (hr : PgScope.Spec.NoRemoteSubquery s)
    (hn : sizeOf s ≤ fuel) (out : List IndexTarget)
    (h : pgSuggest (pgEnv ask schema parse orders norm fuel strict fold) query = .ok out) (t : IndexTarget)
    (ht : t ∈ out) :
    ∀ c ∈ t.columns, (Column cat schema t.tableName c.name ∨ Leftover cat schema t.tableName c.name) ∧
      ∃ x, PgScope.Spec.Below (.s s) (.s x) ∧ ∃ p ∈ PgScope.Spec.places norm x,
        ∃ a, PgScope.Spec.Mentions p.2.2 (.column a c.name) :=
  C83_suggest_sound (pgEnv ask schema parse orders norm fuel strict fold) ho cat hok keyword expr schema
    (C98_postgres le cat keyword expr ask hix hask schema _ rfl rfl rfl) query s hp hpl hf hr hn out h t ht

include hix hask hok ho in
/-- C98: and it is complete for tables with ordinary indexes: columns used in conditions are suggested together
unless an index of the database does the same. -/
theorem C98_suggest_postgres_complete_partial (btree : Str)
    (hcat : (∀ c ∈ cat.classes, c.name.head? ≠ some '<') ∧ ∀ a ∈ cat.attributes, a.name ≠ [])
    (query : Str) (s : PgScope.Select) (hp : parse query = .ok [.select s]) (hpl : PgScope.Spec.Plain s)
    (hf : PgScope.Spec.Fresh s) (hr : PgScope.Spec.NoRemoteSubquery s) (hs : PgScope.Spec.SingleFrom s)
    (hname : PgScope.Spec.OrdinaryNames norm s) (hn : sizeOf s ≤ fuel) (out : List IndexTarget)
    (h : pgSuggest (pgEnv ask schema parse orders norm fuel strict fold) query = .ok out)
    (t : Str) (cs : List Str) (ht : norm t = t) (hread : PgScope.Spec.ReadsTable norm s t) (hne : cs ≠ [])
    (hnd : cs.Nodup)
    (huse : ∀ n ∈ cs, PgScope.Spec.UsesColumn norm
        (fun t n => Column cat schema t n ∨ Leftover cat schema t n) s t n .condition ∨
      PgScope.Spec.UsesAround norm
        (fun t n => Column cat schema t n ∨ Leftover cat schema t n) s t n .condition)
    (hpk : ∃ n ∈ cs, ¬(KeyColumn cat schema t n ∨ IncludedColumn cat schema t n))
    (hplain : PlainIndexes cat btree keyword schema t) :
    newIndexTarget t cs ∈ out ↔ ¬ Serves cat btree schema fold t cs := by
  have hv : Reads (pgEnv ask schema parse orders norm fuel strict fold) cat keyword expr schema :=
    C98_postgres le cat keyword expr ask hix hask schema _ rfl rfl rfl
  constructor
  · exact fun hm hserve => C84_not_again_partial _ cat hok btree keyword expr schema hv query out h t cs hplain hserve hm
  · intro hns
    rcases C84_complete_partial (pgEnv ask schema parse orders norm fuel strict fold) ho cat hok btree keyword expr schema
      hv hcat query s hp hpl hf hr hs hname hn out h t cs ht hread hne hnd huse hpk hplain with h1 | h1
    · exact h1
    · exact absurd h1 hns

end pg

section hasura
open Cmd Cmd.Catalogue
variable (le : Val → Val → Prop) (cat : Catalogue) (keyword : Str → Bool) (expr : Nat → Nat → Str)
  (enc : List Str → Str) (scan : Str → Except Hasura.Err (List Str)) (hscan : ∀ l, scan (enc l) = .ok l)
  (run : RunSQLArgs → Except Hasura.Err (List (List Str))) (hix : OneIndex cat)
  (hrun : Passes le (pgDb cat keyword expr) enc run) (hok : Ok cat) (schema : Str)
  (parse : Str → Except (Option Hasura.Err) (List PgScope.Stmt)) (orders : PgScope.Orders)
  (ho : orders.Ok) (norm : Str → Str) (fuel : Nat) (fold : Char → Char)

include hscan hix hrun in
/-- the lookups through Hasura read the catalogue -/
theorem hasura_reads : Reads (hasuraEnv scan run schema parse orders norm fuel fold) cat keyword expr schema := by
  constructor
  · intro names rows hne h
    rcases C98_hasura_columns le cat keyword expr enc run hrun schema names hne
        (getTableColumns run schema names).1 _ rfl with ⟨e, h1⟩ | ⟨infos, h1, h2⟩
    · dsimp only [hasuraEnv] at h
      rw [h1] at h
      cases h
    · dsimp only [hasuraEnv] at h
      rw [h1] at h
      cases h
      exact h2
  · intro names rows hne h
    rcases C98_hasura_indexes le cat keyword expr enc run hix hrun scan hscan schema names hne
        (getIndexes scan run schema names).1 _ rfl with ⟨e, h1⟩ | ⟨infos, h1, h2⟩
    · dsimp only [hasuraEnv] at h
      rw [h1] at h
      cases h
    · dsimp only [hasuraEnv] at h
      rw [h1] at h
      cases h
      exact h2

include hscan hix hrun hok ho in
/-- C98: through a Hasura server over a database with this catalogue, what is suggested for the SQL of a GraphQL query
consists of columns of the tables that this SQL mentions. -/
theorem C98_suggest_hasura_sound (query : Str) (s : PgScope.Select) (hp : parse query = .ok [.select s])
    (hpl : PgScope.Spec.Plain s) (hf : PgScope.Spec.Fresh s) (hr : PgScope.Spec.NoRemoteSubquery s)
    (hn : sizeOf s ≤ fuel) (out : List IndexTarget)
    (h : pgSuggest (hasuraEnv scan run schema parse orders norm fuel fold) query = .ok out) (t : IndexTarget)
    (ht : t ∈ out) :
    ∀ c ∈ t.columns, (Column cat schema t.tableName c.name ∨ Leftover cat schema t.tableName c.name) ∧
      ∃ x, PgScope.Spec.Below (.s s) (.s x) ∧ ∃ p ∈ PgScope.Spec.places norm x,
        ∃ a, PgScope.Spec.Mentions p.2.2 (.column a c.name) :=
  C83_suggest_sound (hasuraEnv scan run schema parse orders norm fuel fold) ho cat hok keyword expr schema
    (hasura_reads le cat keyword expr enc scan hscan run hix hrun schema parse orders norm fuel fold)
    query s hp hpl hf hr hn out h t ht

include hscan hix hrun hok ho in
/-- C98: and it is complete for tables with ordinary indexes, also for columns that a subquery uses of the query around
it, which is how Hasura writes relationships. -/
theorem C98_suggest_hasura_complete_partial (btree : Str)
    (hcat : (∀ c ∈ cat.classes, c.name.head? ≠ some '<') ∧ ∀ a ∈ cat.attributes, a.name ≠ [])
    (query : Str) (s : PgScope.Select) (hp : parse query = .ok [.select s]) (hpl : PgScope.Spec.Plain s)
    (hf : PgScope.Spec.Fresh s) (hr : PgScope.Spec.NoRemoteSubquery s) (hs : PgScope.Spec.SingleFrom s)
    (hname : PgScope.Spec.OrdinaryNames norm s) (hn : sizeOf s ≤ fuel) (out : List IndexTarget)
    (h : pgSuggest (hasuraEnv scan run schema parse orders norm fuel fold) query = .ok out)
    (t : Str) (cs : List Str) (ht : norm t = t) (hread : PgScope.Spec.ReadsTable norm s t) (hne : cs ≠ [])
    (hnd : cs.Nodup)
    (huse : ∀ n ∈ cs, PgScope.Spec.UsesColumn norm
        (fun t n => Column cat schema t n ∨ Leftover cat schema t n) s t n .condition ∨
      PgScope.Spec.UsesAround norm
        (fun t n => Column cat schema t n ∨ Leftover cat schema t n) s t n .condition)
    (hpk : ∃ n ∈ cs, ¬(KeyColumn cat schema t n ∨ IncludedColumn cat schema t n))
    (hplain : PlainIndexes cat btree keyword schema t) :
    newIndexTarget t cs ∈ out ↔ ¬ Serves cat btree schema fold t cs := by
  have hv := hasura_reads le cat keyword expr enc scan hscan run hix hrun schema parse orders norm fuel fold
  constructor
  · exact fun hm hserve => C84_not_again_partial _ cat hok btree keyword expr schema hv query out h t cs hplain hserve hm
  · intro hns
    rcases C84_complete_partial _ ho cat hok btree keyword expr schema
      hv hcat query s hp hpl hf hr hs hname hn out h t cs ht hread hne hnd huse hpk hplain with h1 | h1
    · exact h1
    · exact absurd h1 hns

end hasura

section my
open Cmd Cmd.MyCatalogue
variable {E : Type} (le : Val → Val → Prop) (hle : Collates le) (cat : Catalogue)
  (ask : Str → List Str → Except E (List Row)) (hask : Faithful le (myDb cat) ask) (schema : Str)
  (parse : Str → Except (Err E) (List MyScope.Stmt)) (orders : MyScope.Orders) (ho : orders.Ok) (norm : Str → Str)
  (fold : Char → Char)

include hle hask ho in
/-- C98: the same for MySQL. -/
theorem C98_suggest_mysql_sound (hcat : ∀ c ∈ cat.cols, c.table ≠ []) (query : Str) (out : List IndexTarget)
    (h : mysqlSuggest (myEnv ask schema parse orders norm fold) query = .ok out) (t : IndexTarget) (ht : t ∈ out) :
    ∀ c ∈ t.columns, Column cat schema t.tableName c.name :=
  C85_suggest_sound (myEnv ask schema parse orders norm fold) ho cat schema
    (C98_mysql le cat ask hle hask schema _ rfl rfl rfl) hcat query out h t ht

include hle hask ho in
/-- C98: and it is complete for tables with ordinary indexes. -/
theorem C98_suggest_mysql_complete_partial (hok : Ok cat) (btree : Str) (query : Str) (s : MyScope.Select)
    (rest : List MyScope.Stmt) (hp : parse query = .ok (.select s :: rest)) (out : List IndexTarget)
    (h : mysqlSuggest (myEnv ask schema parse orders norm fold) query = .ok out)
    (name : Str) (cs : List Str) (hread : MyScope.Spec.ReadsTable norm s name) (hne : cs ≠ []) (hnd : cs.Nodup)
    (huse : ∀ n ∈ cs, MyScope.Spec.UsesColumn norm (Column cat schema) s (norm name) n .condition)
    (hpk : ∃ n ∈ cs, ¬Pri cat schema (norm name) n) (hplain : PlainIndexes cat btree schema (norm name)) :
    newIndexTarget (norm name) cs ∈ out ↔ ¬ Serves cat btree schema fold (norm name) cs := by
  have hv : Reads (myEnv ask schema parse orders norm fold) cat schema :=
    C98_mysql le cat ask hle hask schema _ rfl rfl rfl
  constructor
  · exact fun hm hserve => C85_not_again _ cat hok btree schema hv query out h _ cs hplain hserve hm
  · intro hns
    rcases C85_complete_partial (myEnv ask schema parse orders norm fold) ho cat hok btree schema hv query s rest hp out h
      name cs hread hne hnd huse hpk hplain with h1 | h1
    · exact h1
    · exact absurd h1 hns

end my

/-! ## Concrete cases -/

/-- the suggester on the server of `FetchEx`, with the query of C83: the same list as there -/
example : Cmd.pgSuggest (pgEnv (exAsk (pgDb (Cmd.Catalogue.exCat 'r' Cmd.Catalogue.pkId Cmd.Catalogue.onAge) (fun _ => false)
    (fun _ _ => []))) c!"public" (fun _ => .ok [.select Cmd.Catalogue.exQuery]) PgScope.idOrders PgScope.lower 100000 false
      Char.toLower) [] = .ok Cmd.Catalogue.exOut := by krfl

/-- a way to write arrays: `a` before each character, `b` after each text -/
def exEnc (l : List Str) : Str := l.flatMap fun s => s.flatMap (fun c => ['a', c]) ++ ['b']

/-- reading it -/
def exScan : Str → Except Hasura.Err (List Str)
  | [] => .ok []
  | 'b' :: r => match exScan r with
    | .ok l => .ok ([] :: l)
    | .error e => .error e
  | 'a' :: c :: r => match exScan r with
    | .ok (s :: l) => .ok ((c :: s) :: l)
    | .ok [] => .error (.other 1)
    | .error e => .error e
  | _ => .error (.other 1)

theorem exScan_enc : ∀ l, exScan (exEnc l) = .ok l
  | [] => rfl
  | s :: l => by
    have ih := exScan_enc l
    have h : exEnc (s :: l) = s.flatMap (fun c => ['a', c]) ++ ('b' :: exEnc l) := by simp [exEnc]
    rw [h]
    clear h
    induction s with
    | nil => simp [exScan, ih]
    | cons c s ih' => simp only [List.flatMap_cons, List.cons_append, List.nil_append, exScan, ih']

/-- Hasura in front of the server of C83 -/
def exServer (a : RunSQLArgs) : Except Hasura.Err (List (List Str)) :=
  match exAsk (pgDb (Cmd.Catalogue.exCat 'r' Cmd.Catalogue.pkId Cmd.Catalogue.onAge) (fun _ => false) (fun _ _ => []))
      a.sql [] with
  | .error _ => .error (.other 0)
  | .ok out => .ok ([] :: out.map fun r => r.map fun p => cell exEnc p.2)

theorem exServer_passes : Passes (fun _ _ => True) (pgDb (Cmd.Catalogue.exCat 'r' Cmd.Catalogue.pkId
    Cmd.Catalogue.onAge) (fun _ => false) (fun _ _ => [])) exEnc exServer := by
  intro args cells h s hs
  rw [exServer] at h
  split at h
  · cases h
  · next out ho =>
    cases h
    exact ⟨out, [], exAsk_faithful _ _ _ _ ho s hs, rfl⟩

/-- through Hasura the same list is suggested -/
example : Cmd.pgSuggest (hasuraEnv exScan exServer c!"public" (fun _ => .ok [.select Cmd.Catalogue.exQuery])
    PgScope.idOrders PgScope.lower 100000 Char.toLower) [] = .ok Cmd.Catalogue.exOut := by krfl

example : OneIndex (Cmd.Catalogue.exCat 'r' Cmd.Catalogue.pkId Cmd.Catalogue.onAge) := by unfold OneIndex; decide +kernel

/-- alphabetical order by character -/
def alpha : Str → Str → Bool
  | [], _ => true
  | _ :: _, [] => false
  | a :: as, b :: bs => decide (a.toNat < b.toNat) || (a == b && alpha as bs)

theorem alpha_antisymm : ∀ a b, alpha a b = true → alpha b a = true → a = b
  | [], [], _, _ => rfl
  | [], _ :: _, _, h => by simp [alpha] at h
  | _ :: _, [], h, _ => by simp [alpha] at h
  | a :: as, b :: bs, h1, h2 => by
    simp only [alpha, Bool.or_eq_true, decide_eq_true_eq, Bool.and_eq_true, beq_iff_eq] at h1 h2
    rcases h1 with h1 | ⟨rfl, h1⟩
    · rcases h2 with h2 | ⟨rfl, h2⟩ <;> omega
    · rcases h2 with h2 | ⟨-, h2⟩
      · omega
      · rw [alpha_antisymm as bs h1 h2]

/-- a collation -/
def exLe : Val → Val → Bool
  | .text a, .text b => alpha a b
  | .int a, .int b => decide (a ≤ b)
  | v, w => decide (v = w)

theorem alpha_refl : ∀ a, alpha a a = true
  | [] => rfl
  | a :: as => by simp [alpha, alpha_refl as]

theorem exLe_collates : Collates fun v w => exLe v w = true where
  refl v := by cases v <;> simp [exLe, alpha_refl]
  texts a b h1 h2 := alpha_antisymm a b h1 h2
  ints a b h := by simpa [exLe] using h

def beforeB : List Val → List Val → Bool
  | [], _ => true
  | _ :: _, [] => false
  | a :: as, b :: bs => exLe a b && (!exLe b a || beforeB as bs)

theorem beforeB_iff : ∀ a b, beforeB a b = true → Before (fun v w => exLe v w = true) a b
  | [], _, _ => trivial
  | _ :: _, [], h => by simp [beforeB] at h
  | a :: as, b :: bs, h => by
    simp only [beforeB, Bool.and_eq_true, Bool.or_eq_true, Bool.not_eq_true'] at h
    refine ⟨h.1, fun hb => beforeB_iff as bs ?_⟩
    rcases h.2 with h2 | h2
    · rw [hb] at h2; cases h2
    · exact h2

def sortedB : List (Row × List Val) → Bool
  | [] => true
  | r :: l => l.all (fun q => beforeB r.2 q.2) && sortedB l

theorem sortedB_iff : ∀ l, sortedB l = true → l.Pairwise fun p q => Before (fun v w => exLe v w = true) p.2 q.2
  | [], _ => .nil
  | r :: l, h => by
    simp only [sortedB, Bool.and_eq_true, List.all_eq_true] at h
    exact .cons (fun q hq => beforeB_iff _ _ (h.1 q hq)) (sortedB_iff l h.2)

/-- a server that answers if the rows happen to be in order -/
def exSorted (db : Db) (text : Str) (args : List Str) : Except Unit (List Row) :=
  match Query.read text with
  | none => .error ()
  | some s => if sortedB (s.rows db (args.map .text)) then .ok ((s.rows db (args.map .text)).map Prod.fst) else .error ()

theorem exSorted_faithful (db : Db) : Faithful (fun v w => exLe v w = true) db (exSorted db) := by
  intro text args out h s hs
  rw [exSorted, hs] at h
  simp only at h
  split at h
  · next hb =>
    cases h
    exact ⟨_, .refl _, sortedB_iff _ hb, rfl⟩
  · cases h

/-- the catalogue of C85 with its tables in the order of their names -/
def exTasks : Cmd.MyCatalogue.Catalogue where
  cols := (Cmd.MyCatalogue.exCat (Cmd.MyCatalogue.onStatus none true "BTREE")).cols.reverse
  stats := (Cmd.MyCatalogue.exCat (Cmd.MyCatalogue.onStatus none true "BTREE")).stats

/-- the suggester on this server, with the query of C85: the same list as there -/
example : Cmd.mysqlSuggest (myEnv (exSorted (myDb exTasks))
    c!"app" (fun _ => .ok [.select MyScope.exQuery]) MyScope.idOrders PgScope.lower Char.toLower) ['q'] =
      .ok Cmd.MyCatalogue.exOut := by krfl

end Verif.Infra.Fetch
