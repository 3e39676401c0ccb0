import Verif.Infra.Fetch
/-!
# C98: concrete cases
-/
namespace Verif.Infra.Fetch
open Verif.Sql Verif.Sql.Query Verif.Infra.Hasura

/-- a server that reads the text and answers with the rows as they come; every order is allowed -/
def exAsk (db : Db) (text : Str) (args : List Str) : Except Unit (List Row) :=
  match Query.read text with
  | none => .error ()
  | some s => .ok ((s.rows db (args.map .text)).map Prod.fst)

theorem before_true : ∀ a b : List Val, a.length = b.length → Before (fun _ _ => True) a b
  | [], _, _ => trivial
  | _ :: _, [], h => by simp at h
  | _ :: a, _ :: b, h => ⟨trivial, fun _ => before_true a b (by simpa using h)⟩

theorem exAsk_faithful (db : Db) : Faithful (fun _ _ => True) db (exAsk db) := by
  intro text args out h s hs
  rw [exAsk, hs] at h
  cases h
  refine ⟨_, .refl _, ?_, rfl⟩
  rw [List.pairwise_iff_forall_sublist]
  intro a b hab
  have hm : ∀ x ∈ s.rows db (args.map .text), x.2.length = s.keys.length := by
    intro x hx
    obtain ⟨e, -, rfl⟩ := List.mem_map.mp hx
    simp
  exact before_true _ _ (by rw [hm a (hab.subset (by simp)), hm b (hab.subset (by simp))])

/-- `users` with a primary key on `id` and an index on `age` and `id` -/
def exPg : Cmd.Catalogue.Catalogue where
  namespaces := [⟨1, c!"public"⟩, ⟨2, c!"other"⟩]
  classes := [⟨10, c!"users", 1, 'r'⟩, ⟨11, c!"users_pkey", 1, 'i'⟩, ⟨12, c!"second", 1, 'i'⟩, ⟨20, c!"users", 2, 'r'⟩]
  attributes := [⟨10, c!"id", 1, false⟩, ⟨10, c!"age", 2, false⟩, ⟨10, c!"ctid", -1, false⟩, ⟨20, c!"secret", 1, false⟩]
  indexes := [⟨11, 10, true, [1], 1, true, false, c!"btree"⟩, ⟨12, 10, false, [2, 1], 2, true, false, c!"btree"⟩]

theorem exPg_one : OneIndex exPg := by unfold OneIndex; decide

/-- The text with its numbered placeholders, as it is sent. -/
example : ∃ q, sqlxIn (E := Unit) pgColumns.text c!"public" [c!"users", c!"todos"] =
    .ok (q, [c!"public", c!"users", c!"todos"]) ∧
    rebind 0 q = pgColumns.pre ++ c!"$1" ++ pgColumns.mid ++ c!"$2, $3" ++ pgColumns.post := by
  refine ⟨pgColumns.pre ++ c!"?" ++ pgColumns.mid ++ c!"?, ?" ++ pgColumns.post, by krfl, by krfl⟩

example : Cmd.Catalogue.columnRows exPg c!"public" [c!"users"] =
    [(c!"users", c!"id", true), (c!"users", c!"id", false), (c!"users", c!"age", false)] ∧
    Cmd.Catalogue.indexRows exPg (fun _ => false) (fun _ _ => []) c!"public" [c!"users"] =
      [(c!"users", [c!"id"]), (c!"users", [c!"age", c!"id"])] := by decide +kernel

/-- an environment whose lookups are those on a server -/
def exEnv (ask : Str → List Str → Except Unit (List Row)) : Cmd.PgEnv PgColumn (Err Unit) where
  parse := fun _ => .ok []
  orders := PgScope.idOrders
  norm := id
  fuel := 0
  cols := pgGetTableColumns ask c!"public"
  f := fun c => (c.tableName, c.columnName, c.isPK)
  strict := false
  select := pgGetIndexes ask c!"public"
  fold := id

theorem exEnv_columns (cat : Cmd.Catalogue.Catalogue) (ask : Str → List Str → Except Unit (List Row)) (hix : OneIndex cat)
    (h : Faithful (fun _ _ => True) (pgDb cat (fun _ => false) (fun _ _ => [])) ask) (names : List Str)
    (hne : names ≠ []) (rows : List PgColumn) (hr : pgGetTableColumns ask c!"public" names = .ok rows) :
    (rows.map said).Perm (Cmd.Catalogue.columnRows cat c!"public" names) :=
  (C98_postgres (fun _ _ => True) cat (fun _ => false) (fun _ _ => []) ask hix h c!"public" (exEnv ask) rfl rfl
    rfl).columns names rows hne hr

/-- the lookups on this database -/
example : ∃ rows, pgGetTableColumns (exAsk (pgDb exPg (fun _ => false) (fun _ _ => []))) c!"public" [c!"users"] =
    .ok rows ∧ (rows.map said).Perm
      [(c!"users", c!"id", true), (c!"users", c!"id", false), (c!"users", c!"age", false)] := by
  obtain ⟨⟨rows, h⟩, -⟩ := C98_postgres_answers (fun _ _ => True) exPg (fun _ => false) (fun _ _ => []) _ exPg_one
    (exAsk_faithful _) c!"public" [c!"users"] (by simp) (fun text args s hs => ⟨_, by rw [exAsk, hs]⟩)
  refine ⟨rows, h, ?_⟩
  have h6 := exEnv_columns exPg _ exPg_one (exAsk_faithful _) _ (by simp) _ h
  have e : Cmd.Catalogue.columnRows exPg c!"public" [c!"users"] =
    [(c!"users", c!"id", true), (c!"users", c!"id", false), (c!"users", c!"age", false)] := by decide +kernel
  rw [e] at h6
  exact h6

/-- `users` with an index `both` on two columns and one on an expression in `orders` -/
def exMy : Cmd.MyCatalogue.Catalogue where
  cols := [⟨c!"app", c!"users", c!"id", c!"PRI"⟩, ⟨c!"app", c!"users", c!"age", []⟩, ⟨c!"web", c!"users", c!"x", []⟩]
  stats := [⟨c!"app", c!"users", c!"both", 1, some c!"age", none, true, c!"BTREE"⟩,
    ⟨c!"app", c!"users", c!"both", 2, some c!"id", none, true, c!"BTREE"⟩,
    ⟨c!"app", c!"orders", c!"low", 1, none, none, true, c!"BTREE"⟩]

example : myGetTableColumns (exAsk (myDb exMy)) c!"app" [c!"users", c!"orders"] =
    .ok [⟨c!"users", c!"id", c!"PRI"⟩, ⟨c!"users", c!"age", []⟩] := by krfl

example : myGetIndexes (exAsk (myDb exMy)) c!"app" [c!"users"] =
    .ok [⟨c!"users", c!"both", c!"age"⟩, ⟨c!"users", c!"both", c!"id"⟩] := by krfl

example : myGetIndexes (exAsk (myDb exMy)) c!"app" [c!"users", c!"orders"] = .error .scan := by krfl

example : myGetIndexes (exAsk (myDb exMy)) c!"app" [] = .error .empty := by krfl

/-- an order as `Collates` asks -/
example : Collates fun v w => v = w ∨ ∃ i j, v = .int i ∧ w = .int j ∧ i ≤ j where
  refl _ := .inl rfl
  texts a b h _ := by
    rcases h with h | ⟨i, j, h, -⟩
    · exact Val.text.inj h
    · cases h
  ints a b h := by
    rcases h with h | ⟨i, j, h1, h2, h3⟩
    · have := Val.int.inj h; omega
    · have := Val.int.inj h1; have := Val.int.inj h2; omega

/-- Hasura in front of that server -/
def exRun (a : RunSQLArgs) : Except Hasura.Err (List (List Str)) :=
  match exAsk (pgDb exPg (fun _ => false) (fun _ _ => [])) a.sql [] with
  | .error _ => .error (.other 0)
  | .ok out => .ok ([] :: out.map fun r => r.map fun p => cell (fun l => l.flatten) p.2)

example : Passes (fun _ _ => True) (pgDb exPg (fun _ => false) (fun _ _ => [])) (fun l => l.flatten) exRun := by
  intro args cells h s hs
  rw [exRun] at h
  split at h
  · cases h
  · next out ho =>
    cases h
    exact ⟨out, [], exAsk_faithful _ _ _ _ ho s hs, rfl⟩

example : (getTableColumns exRun c!"public" [c!"users"]).1 =
    some (.ok [⟨c!"id", true, c!"users"⟩, ⟨c!"id", false, c!"users"⟩, ⟨c!"age", false, c!"users"⟩]) := by krfl

end Verif.Infra.Fetch
