import Verif.Cmd.Chain
/-!
# C83, C84: what PostgreSQL's catalogue says, and what the suggester takes from it

The two queries sent to PostgreSQL (directly, or through Hasura) as relational expressions over the
catalogue, and the whole of `Suggest` over a database with that catalogue.
-/
namespace Verif.Cmd.Catalogue
open Verif.Index Verif.Index.Spec Verif.Examine Verif.Builder Verif.Lib
open Verif.PgScope (HasColumn InPrimaryKey Fail)
open Verif.Sql

/-! ## The catalogue (PostgreSQL's documentation, chapter "System Catalogs"; not from the repository) -/

/-- `pg_namespace` -/
structure Namespace where
  oid : Nat
  name : Str
deriving DecidableEq

/-- `pg_class`; `kind` is `r` for an ordinary table, `p` for a partitioned one, `v` for a view, `i` for an
index, … -/
structure Class where
  oid : Nat
  name : Str
  ns : Nat
  kind : Char
deriving DecidableEq

/-- `pg_attribute`; the number is positive for a column, negative for a system column.  A dropped column keeps
its entry under the name `........pg.dropped.N........`. -/
structure Attribute where
  rel : Nat
  name : Str
  num : Int
  dropped : Bool
deriving DecidableEq

/-- `pg_index`: the oid of the index and of its table, whether it is the primary key, `indkey` (zero for an
expression; first the key columns, then those of INCLUDE), `indnkeyatts`, and what the queries do not read:
whether the index is valid, has a WHERE clause, and its method. -/
structure Ix where
  idx : Nat
  rel : Nat
  primary : Bool
  keys : List Int
  nkey : Nat
  valid : Bool
  conditional : Bool
  method : Str
deriving DecidableEq

structure Catalogue where
  namespaces : List Namespace
  classes : List Class
  attributes : List Attribute
  indexes : List Ix
deriving DecidableEq

/-! ## Model of the queries -/

/-- the right side of a LEFT OUTER JOIN for one row of the left side -/
def leftJoin {A : Type} : List A → List (Option A)
  | [] => [none]
  | l => l.map some

/-- `/repo/infra/postgres/column_info.go:3-21` and `/repo/infra/hasura/column_info.go:11-29`
`columnFetchQuery`: the rows (table_name, column_name, is_pk) before ORDER BY.  A NULL `indisprimary` counts
as FALSE. -/
def columnRows (cat : Catalogue) (schema : Str) (tables : List Str) : List (Str × Str × Bool) :=
  cat.classes.flatMap fun c =>
  (cat.attributes.filter fun a => decide (a.rel = c.oid)).flatMap fun a =>
  (cat.namespaces.filter fun s => decide (c.ns = s.oid)).flatMap fun s =>
  (leftJoin (cat.indexes.filter fun i => decide (c.oid = i.rel) && decide (a.num ∈ i.keys))).flatMap fun i =>
    if s.name = schema ∧ c.name ∈ tables ∧ c.kind = 'r' ∧ a.num ≥ 0 then
      [(c.name, a.name, match i with
        | none => false
        | some i => i.primary)]
    else []

/-- `PG_GET_INDEXDEF(indexrelid, k + 1, TRUE)`: the column's name as an identifier, or the text `expr` of the
expression (from PostgreSQL's documentation and source) -/
def indexDef (cat : Catalogue) (keyword : Str → Bool) (expr : Nat → Nat → Str) (i : Ix) (k : Nat) (num : Int) :
    Str :=
  if num = 0 then expr i.idx k
  else match cat.attributes.find? fun a => decide (a.rel = i.rel) && decide (a.num = num) with
    | none => []
    | some a => quoteIdent keyword a.name

/-- `/repo/infra/postgres/index_info.go:8-27` and `/repo/infra/hasura/index_info.go:11-29` `indexFetchQuery`:
the rows (table_name, column_names) before ORDER BY; `index_name` is not used.  `indkey` is numbered from
zero. -/
def indexRows (cat : Catalogue) (keyword : Str → Bool) (expr : Nat → Nat → Str) (schema : Str)
    (tables : List Str) : List (Str × List Str) :=
  cat.indexes.flatMap fun x =>
  (cat.classes.filter fun i => decide (x.idx = i.oid)).flatMap fun i =>
  (cat.classes.filter fun t => decide (x.rel = t.oid)).flatMap fun t =>
  (cat.namespaces.filter fun s => decide (i.ns = s.oid)).flatMap fun s =>
    if s.name = schema ∧ t.name ∈ tables then [(t.name, x.keys.mapIdx fun k num => indexDef cat keyword expr x k num)]
    else []

/-- `v` works on a database with the catalogue: its two queries, asked about some tables, answer with the rows above,
in some order. -/
structure Reads {T E : Type} (v : PgEnv T E) (cat : Catalogue) (keyword : Str → Bool)
    (expr : Nat → Nat → Str) (schema : Str) : Prop where
  columns : ∀ names rows, names ≠ [] → v.cols names = .ok rows → (rows.map v.f).Perm (columnRows cat schema names)
  indexes : ∀ tables irows, tables ≠ [] → v.select tables = .ok irows → irows.Perm (indexRows cat keyword expr schema tables)

/-! ## Specification -/

/-- In the schema, `t` names an ordinary table, the one with this oid. -/
def IsTable (cat : Catalogue) (schema t : Str) (oid : Nat) : Prop :=
  ∃ c ∈ cat.classes, c.oid = oid ∧ c.name = t ∧ c.kind = 'r' ∧ ∃ s ∈ cat.namespaces, s.oid = c.ns ∧ s.name = schema

/-- The table has a column of this name. -/
def Column (cat : Catalogue) (schema t name : Str) : Prop :=
  ∃ oid, IsTable cat schema t oid ∧ ∃ a ∈ cat.attributes, a.rel = oid ∧ a.name = name ∧ 0 < a.num ∧ a.dropped = false

/-- A column of the table was dropped and left this name behind. -/
def Leftover (cat : Catalogue) (schema t name : Str) : Prop :=
  ∃ oid, IsTable cat schema t oid ∧ ∃ a ∈ cat.attributes, a.rel = oid ∧ a.name = name ∧ 0 < a.num ∧ a.dropped = true

/-- `PRIMARY KEY (…)` of the table lists the column. -/
def KeyColumn (cat : Catalogue) (schema t name : Str) : Prop :=
  ∃ oid, IsTable cat schema t oid ∧ ∃ i ∈ cat.indexes, i.rel = oid ∧ i.primary = true ∧
    ∃ a ∈ cat.attributes, a.rel = oid ∧ a.name = name ∧ a.num ∈ i.keys.take i.nkey

/-- `PRIMARY KEY (…) INCLUDE (…)` of the table lists the column after INCLUDE. -/
def IncludedColumn (cat : Catalogue) (schema t name : Str) : Prop :=
  ∃ oid, IsTable cat schema t oid ∧ ∃ i ∈ cat.indexes, i.rel = oid ∧ i.primary = true ∧
    ∃ a ∈ cat.attributes, a.rel = oid ∧ a.name = name ∧ a.num ∈ i.keys.drop i.nkey

/-- What PostgreSQL ensures: no attribute has the number zero, a primary key has no expressions or system
columns, an oid names one class and a number one attribute of it, and an index is in the schema of its table
and uses its attributes. -/
structure Ok (cat : Catalogue) : Prop where
  nonzero : ∀ a ∈ cat.attributes, a.num ≠ 0
  primary : ∀ i ∈ cat.indexes, i.primary = true → ∀ k ∈ i.keys, 0 < k
  oids : ∀ c ∈ cat.classes, ∀ d ∈ cat.classes, c.oid = d.oid → c = d
  numbers : ∀ a ∈ cat.attributes, ∀ b ∈ cat.attributes, a.rel = b.rel → a.num = b.num → a = b
  schemas : ∀ i ∈ cat.indexes, ∃ c ∈ cat.classes, ∃ d ∈ cat.classes, c.oid = i.idx ∧ d.oid = i.rel ∧ c.ns = d.ns
  keys : ∀ i ∈ cat.indexes, ∀ k ∈ i.keys, k ≠ 0 → ∃ a ∈ cat.attributes, a.rel = i.rel ∧ a.num = k

/-! ## Lemmas -/

theorem mem_leftJoin_none {A : Type} (l : List A) : none ∈ leftJoin l ↔ l = [] := by
  cases l <;> simp [leftJoin]

theorem mem_leftJoin_some {A : Type} (l : List A) (x : A) : some x ∈ leftJoin l ↔ x ∈ l := by
  cases l <;> simp [leftJoin]

theorem leftJoin_ne {A : Type} (l : List A) : ∃ x, x ∈ leftJoin l := by
  cases l with
  | nil => exact ⟨none, by simp [leftJoin]⟩
  | cons a l => exact ⟨some a, by simp [leftJoin]⟩

/-- a row of the column query -/
theorem mem_columnRows (cat : Catalogue) (schema : Str) (tables : List Str) (t n : Str) (b : Bool) :
    (t, n, b) ∈ columnRows cat schema tables ↔ t ∈ tables ∧ ∃ oid, IsTable cat schema t oid ∧
      ∃ a ∈ cat.attributes, a.rel = oid ∧ a.name = n ∧ 0 ≤ a.num ∧
        ∃ i ∈ leftJoin (cat.indexes.filter fun i => decide (oid = i.rel) && decide (a.num ∈ i.keys)),
          b = match i with
            | none => false
            | some i => i.primary := by
  simp only [columnRows, List.mem_flatMap, List.mem_filter, decide_eq_true_eq, List.mem_ite_nil_right,
    List.mem_singleton, Prod.mk.injEq, IsTable]
  constructor
  · rintro ⟨c, hc, a, ⟨ha, har⟩, s, ⟨hs, hsn⟩, i, hi, ⟨h1, h2, h3, h4⟩, rfl, rfl, rfl⟩
    exact ⟨h2, c.oid, ⟨c, hc, rfl, rfl, h3, s, hs, hsn.symm, h1⟩, a, ha, har, rfl, h4, i, hi, rfl⟩
  · rintro ⟨ht, oid, ⟨c, hc, rfl, rfl, hk, s, hs, hsn, hss⟩, a, ha, har, rfl, h4, i, hi, rfl⟩
    exact ⟨c, hc, a, ⟨ha, har⟩, s, ⟨hs, hsn.symm⟩, i, hi, ⟨hss, ht, hk, h4⟩, rfl, rfl, rfl⟩

theorem hasColumn_perm {T : Type} (f : T → Str × Str × Bool) (rows : List T) (l : List (Str × Str × Bool))
    (h : (rows.map f).Perm l) (t n : Str) : HasColumn f rows t n ↔ ∃ b, (t, n, b) ∈ l := by
  constructor
  · rintro ⟨v, hv, rfl, rfl⟩
    exact ⟨(f v).2.2, h.mem_iff.mp (List.mem_map.mpr ⟨v, hv, rfl⟩)⟩
  · rintro ⟨b, hb⟩
    obtain ⟨v, hv, e⟩ := List.mem_map.mp (h.mem_iff.mpr hb)
    exact ⟨v, hv, by rw [e], by rw [e]⟩

theorem inPrimaryKey_perm {T : Type} (f : T → Str × Str × Bool) (rows : List T) (l : List (Str × Str × Bool))
    (h : (rows.map f).Perm l) (t n : Str) : InPrimaryKey f rows t n ↔ (t, n, true) ∈ l := by
  constructor
  · rintro ⟨v, hv, e⟩
    exact h.mem_iff.mp (List.mem_map.mpr ⟨v, hv, e⟩)
  · intro hb
    obtain ⟨v, hv, e⟩ := List.mem_map.mp (h.mem_iff.mpr hb)
    exact ⟨v, hv, e⟩

/-! ## C83 -/

/-- **C83.** The column query lists exactly the columns of the ordinary tables asked for, and the names that
dropped columns left behind: no system columns, no columns of views, partitioned tables or other schemas. -/
theorem C83_columns {T : Type} (cat : Catalogue) (hok : Ok cat) (schema : Str) (tables : List Str)
    (f : T → Str × Str × Bool) (rows : List T) (h : (rows.map f).Perm (columnRows cat schema tables))
    (t n : Str) :
    HasColumn f rows t n ↔ t ∈ tables ∧ (Column cat schema t n ∨ Leftover cat schema t n) := by
  simp only [hasColumn_perm f rows _ h, mem_columnRows]
  constructor
  · rintro ⟨b, ht, oid, hoid, a, ha, har, han, h0, -⟩
    have : 0 < a.num := lt_of_le_of_ne h0 (Ne.symm (hok.nonzero a ha))
    cases hd : a.dropped with
    | false => exact ⟨ht, .inl ⟨oid, hoid, a, ha, har, han, this, hd⟩⟩
    | true => exact ⟨ht, .inr ⟨oid, hoid, a, ha, har, han, this, hd⟩⟩
  · rintro ⟨ht, ⟨oid, hoid, a, ha, har, han, h0, -⟩ | ⟨oid, hoid, a, ha, har, han, h0, -⟩⟩ <;>
    · obtain ⟨i, hi⟩ := leftJoin_ne
        (cat.indexes.filter fun i : Ix => decide (oid = i.rel) && decide (a.num ∈ i.keys))
      exact ⟨_, ht, oid, hoid, a, ha, har, han, h0.le, i, hi, rfl⟩

/-- **C83.** A column is taken for part of the primary key exactly if `PRIMARY KEY` lists it, before or after
INCLUDE. -/
theorem C83_primary {T : Type} (cat : Catalogue) (hok : Ok cat) (schema : Str) (tables : List Str)
    (f : T → Str × Str × Bool) (rows : List T) (h : (rows.map f).Perm (columnRows cat schema tables))
    (t n : Str) :
    InPrimaryKey f rows t n ↔
      t ∈ tables ∧ (KeyColumn cat schema t n ∨ IncludedColumn cat schema t n) := by
  rw [inPrimaryKey_perm f rows _ h, mem_columnRows]
  constructor
  · rintro ⟨ht, oid, hoid, a, ha, har, han, h0, i, hi, e⟩
    cases i with
    | none => cases e
    | some i =>
      rw [mem_leftJoin_some, List.mem_filter, Bool.and_eq_true, decide_eq_true_eq, decide_eq_true_eq] at hi
      obtain ⟨hi, hr, hk⟩ := hi
      rw [← List.take_append_drop i.nkey i.keys, List.mem_append] at hk
      rcases hk with hk | hk
      · exact ⟨ht, .inl ⟨oid, hoid, i, hi, hr.symm, e.symm, a, ha, har, han, hk⟩⟩
      · exact ⟨ht, .inr ⟨oid, hoid, i, hi, hr.symm, e.symm, a, ha, har, han, hk⟩⟩
  · have key : ∀ oid i a, IsTable cat schema t oid → i ∈ cat.indexes → i.rel = oid → i.primary = true →
        a ∈ cat.attributes → a.rel = oid → a.name = n → a.num ∈ i.keys → ∃ oid, IsTable cat schema t oid ∧
      ∃ a ∈ cat.attributes, a.rel = oid ∧ a.name = n ∧ 0 ≤ a.num ∧
        ∃ i ∈ leftJoin (cat.indexes.filter fun i => decide (oid = i.rel) && decide (a.num ∈ i.keys)),
          true = match i with
            | none => false
            | some i => i.primary := by
      intro oid i a hoid hi hr hp ha har han hk
      refine ⟨oid, hoid, a, ha, har, han, (hok.primary i hi hp _ hk).le, some i, ?_, hp.symm⟩
      rw [mem_leftJoin_some, List.mem_filter, Bool.and_eq_true, decide_eq_true_eq, decide_eq_true_eq]
      exact ⟨hi, hr.symm, hk⟩
    rintro ⟨ht, ⟨oid, hoid, i, hi, hr, hp, a, ha, har, han, hk⟩ | ⟨oid, hoid, i, hi, hr, hp, a, ha, har, han, hk⟩⟩
    · exact ⟨ht, key oid i a hoid hi hr hp ha har han (List.mem_of_mem_take hk)⟩
    · exact ⟨ht, key oid i a hoid hi hr hp ha har han (List.mem_of_mem_drop hk)⟩

/-- **C83.** If no primary key has an INCLUDE clause, the columns taken for the primary key are those of the
primary key.  (Missing: primary keys with INCLUDE; see `C83_include_hides`.) -/
theorem C83_primary_partial {T : Type} (cat : Catalogue) (hok : Ok cat)
    (hinc : ∀ i ∈ cat.indexes, i.primary = true → i.keys.length ≤ i.nkey) (schema : Str) (tables : List Str)
    (f : T → Str × Str × Bool) (rows : List T) (h : (rows.map f).Perm (columnRows cat schema tables))
    (t n : Str) :
    InPrimaryKey f rows t n ↔ t ∈ tables ∧ KeyColumn cat schema t n := by
  rw [C83_primary cat hok schema tables f rows h]
  constructor
  · rintro ⟨ht, hk | ⟨oid, hoid, i, hi, hr, hp, a, ha, har, han, hk⟩⟩
    · exact ⟨ht, hk⟩
    · rw [List.drop_eq_nil_of_le (hinc i hi hp)] at hk
      cases hk
  · rintro ⟨ht, hk⟩
    exact ⟨ht, .inl hk⟩

/-- **C83.** The tables of a query are accepted exactly if each is an ordinary table of the schema that has,
or had, a column.  Otherwise one of them is reported as unknown. -/
theorem C83_accepts {T E : Type} (cat : Catalogue) (hok : Ok cat) (schema : Str) (tables : List Str)
    (f : T → Str × Str × Bool) (rows : List T) (h : (rows.map f).Perm (columnRows cat schema tables)) :
    ((∃ r, Schemas.collectTableSchemas (ε := E) (.ok rows) f tables = .ok r) ↔
      ∀ t ∈ tables, ∃ n, Column cat schema t n ∨ Leftover cat schema t n) ∧
    ∀ e, Schemas.collectTableSchemas (ε := E) (.ok rows) f tables = .error e →
      ∃ t ∈ tables, e = .unknownTable t ∧ ¬∃ n, Column cat schema t n ∨ Leftover cat schema t n := by
  have hrow : ∀ t ∈ tables, (∃ x ∈ rows, (f x).1 = t) ↔ ∃ n, Column cat schema t n ∨ Leftover cat schema t n := by
    intro t ht
    have hc := C83_columns cat hok schema tables f rows h t
    constructor
    · rintro ⟨x, hx, e⟩
      exact ⟨_, ((hc _).mp ⟨x, hx, e, rfl⟩).2⟩
    · rintro ⟨n, hn⟩
      obtain ⟨x, hx, e, -⟩ := (hc n).mpr ⟨ht, hn⟩
      exact ⟨x, hx, e⟩
  have herr : ∀ e, Schemas.collectTableSchemas (ε := E) (.ok rows) f tables = .error e →
      ∃ t ∈ tables, e = .unknownTable t ∧ ¬∃ n, Column cat schema t n ∨ Leftover cat schema t n := by
    intro e he
    rcases (Schemas.C20_collect_error f tables _ e).mp he with ⟨e', h1, -⟩ | ⟨vals, pre, t, post, h1, h2, h3, -, rfl⟩
    · cases h1
    · cases h1
      have ht : t ∈ tables := by rw [h2]; exact List.mem_append_right _ List.mem_cons_self
      refine ⟨t, ht, rfl, fun hn => ?_⟩
      obtain ⟨x, hx, e⟩ := (hrow t ht).mpr hn
      exact h3 x hx e
  refine ⟨⟨?_, ?_⟩, herr⟩
  · rintro ⟨r, hr⟩ t ht
    obtain ⟨i, hi⟩ := List.mem_iff_getElem?.mp ht
    obtain ⟨hl, hd⟩ := (Schemas.C20_collect_ok f tables rows r).mp hr
    have hlt : i < r.length := by rw [hl]; exact (List.getElem?_eq_some_iff.mp hi).1
    exact (hrow t ht).mp (hd i t _ hi (List.getElem?_eq_getElem hlt)).1
  · intro hall
    cases hr : Schemas.collectTableSchemas (ε := E) (.ok rows) f tables with
    | ok r => exact ⟨r, rfl⟩
    | error e =>
      obtain ⟨t, ht, -, hn⟩ := herr e hr
      exact absurd (hall t ht) hn

/-- **C83.** End to end: if there are suggestions at all, every table the query reads is an ordinary table of
the schema that has, or had, a column.  So a query on a view, a partitioned or a foreign table gets none. -/
theorem C83_only_ordinary {T E : Type} (v : PgEnv T E) (ho : v.orders.Ok) (cat : Catalogue) (hok : Ok cat)
    (keyword : Str → Bool) (expr : Nat → Nat → Str) (schema : Str) (hv : Reads v cat keyword expr schema)
    (query : Str) (s : PgScope.Select) (hp : v.parse query = .ok [.select s])
    (hr : PgScope.Spec.NoRemoteSubquery s) (out : List IndexTarget) (h : pgSuggest v query = .ok out)
    (table : Str) (ht : PgScope.Spec.ReadsTable v.norm s table) :
    ∃ n, Column cat schema (v.norm table) n ∨ Leftover cat schema (v.norm table) n := by
  obtain ⟨stmt, its, h1, h2, -⟩ := pgSuggest_ok h
  rw [hp] at h1
  simp only [Except.ok.injEq, List.cons.injEq, and_true] at h1
  subst h1
  obtain ⟨names, rows, schemas, scopes, h3, h4, h5, -⟩ := PgScope.list_ok h2
  have hm := PgScope.C65_names_complete_partial v.norm v.orders.names ho.names s names h3 hr table ht
  exact (C83_accepts cat hok schema names v.f rows (hv.columns _ _ (List.ne_nil_of_mem hm) h4)).1.mp ⟨schemas, h5⟩ _ hm

/-- **C83.** End to end, sound: every column of a suggested index is a column of that ordinary table of the
database, or the remains of a dropped one if the query itself contains such a name. -/
theorem C83_suggest_sound {T E : Type} (v : PgEnv T E) (ho : v.orders.Ok) (cat : Catalogue) (hok : Ok cat)
    (keyword : Str → Bool) (expr : Nat → Nat → Str) (schema : Str) (hv : Reads v cat keyword expr schema)
    (query : Str) (s : PgScope.Select)
    (hp : v.parse query = .ok [.select s]) (hpl : PgScope.Spec.Plain s) (hf : PgScope.Spec.Fresh s)
    (hr : PgScope.Spec.NoRemoteSubquery s) (hn : sizeOf s ≤ v.fuel)
    (out : List IndexTarget) (h : pgSuggest v query = .ok out) (t : IndexTarget) (ht : t ∈ out) :
    ∀ c ∈ t.columns, (Column cat schema t.tableName c.name ∨ Leftover cat schema t.tableName c.name) ∧
      ∃ x, PgScope.Spec.Below (.s s) (.s x) ∧ ∃ p ∈ PgScope.Spec.places v.norm x,
        ∃ a, PgScope.Spec.Mentions p.2.2 (.column a c.name) := by
  obtain ⟨names, rows, tables, irows, h1, h2, h3, h4⟩ := C73_pg_sound v ho query s hp hpl hf hr hn out h
  obtain ⟨h0, -, -, h5, -⟩ := h4 t ht
  have hne := List.ne_nil_of_mem h0
  intro c hc
  obtain ⟨h6, h7⟩ := h5 c hc
  exact ⟨((C83_columns cat hok schema names v.f rows (hv.columns _ _ hne h1) _ _).mp h6).2, h7⟩

/-- what a name means only grows with the columns of its table, and with fewer columns of others -/
theorem denotes_mono {norm : Str → Str} {Has Has' : Str → Str → Prop} {t : Str}
    (h1 : ∀ n, Has t n → Has' t n) (h2 : ∀ t n, Has' t n → Has t n) {s : PgScope.Select} {a n m : Str}
    (h : PgScope.Spec.Denotes norm Has s a n t m) : PgScope.Spec.Denotes norm Has' s a n t m := by
  induction h with
  | qualified s a n t ha hs hh => exact .qualified s a n t ha hs (h1 n hh)
  | only s b n t hs hh hu hq =>
    exact .only s b n t hs (h1 n hh) (fun b' t' hb hh' => hu b' t' hb (h2 t' n hh')) hq
  | derived s y a n a' n' t m p ha hn hs hp hg hu hm _ ih =>
    exact .derived s y a n a' n' t m p ha hn hs hp hg hu hm (ih h1)
  | derivedOnly s y b n a' n' t m p hn hs ht hq hp hg hu hm _ ih =>
    exact .derivedOnly s y b n a' n' t m p hn hs (fun b' t' hb hh' => ht b' t' hb (h2 t' n hh')) hq hp hg hu hm
      (ih h1)

theorem usesColumn_mono {norm : Str → Str} {Has Has' : Str → Str → Prop} {t : Str}
    (h1 : ∀ n, Has t n → Has' t n) (h2 : ∀ t n, Has' t n → Has t n) {s : PgScope.Select} {n : Str} {ty : FieldType}
    (h : PgScope.Spec.UsesColumn norm Has s t n ty) : PgScope.Spec.UsesColumn norm Has' s t n ty := by
  obtain ⟨x, hx, p, hp, hty, a, m, hm, hd | ⟨rfl, o, hb, h3, h4, h5, h6, h7⟩⟩ := h
  · exact ⟨x, hx, p, hp, hty, a, m, hm, .inl (denotes_mono h1 h2 hd)⟩
  · exact ⟨x, hx, p, hp, hty, a, m, hm, .inr ⟨rfl, o, hb, h3, h4, h5, h1 _ h6, h7⟩⟩

theorem byFrom_mono {norm : Str → Str} {Has Has' : Str → Str → Prop} {t : Str}
    (h1 : ∀ n, Has t n → Has' t n) (h2 : ∀ t n, Has' t n → Has t n) {s : PgScope.Select} {a n m : Str}
    (h : PgScope.Spec.ByFrom norm Has s a n t m) : PgScope.Spec.ByFrom norm Has' s a n t m := by
  cases h with
  | qualified _ _ _ ha hs hh => exact .qualified s a n t ha hs (h1 _ hh)
  | only b _ _ hs hh hu hq =>
    exact .only s b n t hs (h1 _ hh) (fun b' t' hb hh' => hu b' t' hb (h2 t' _ hh')) hq
  | derived y _ _ a' n' _ _ p ha hn hs hp hg hu hm hd =>
    exact .derived s y a n a' n' t m p ha hn hs hp hg hu hm (denotes_mono h1 h2 hd)
  | derivedOnly y b _ a' n' _ _ p hn hs ht hq hp hg hu hm hd =>
    exact .derivedOnly s y b n a' n' t m p hn hs (fun b' t' hb hh' => ht b' t' hb (h2 t' n hh')) hq hp hg hu hm
      (denotes_mono h1 h2 hd)

theorem usesAround_mono {norm : Str → Str} {Has Has' : Str → Str → Prop} {t : Str}
    (h1 : ∀ n, Has t n → Has' t n) (h2 : ∀ t n, Has' t n → Has t n) {s : PgScope.Select} {n : Str} {ty : FieldType}
    (h : PgScope.Spec.UsesAround norm Has s t n ty) : PgScope.Spec.UsesAround norm Has' s t n ty := by
  obtain ⟨o, x, hx, p, hp, hty, a, m, hm, hb, hd⟩ := h
  refine ⟨o, x, hx, p, hp, hty, a, m, hm, ?_, ?_⟩
  · rcases hb with hb | ⟨e, hm', hb, hs⟩
    · exact .inl hb
    · exact .inr ⟨e, hm', fun b t' hbt hh => hb b t' hbt (h2 _ _ hh), hs⟩
  · rcases hd with ⟨hp', hdn, hd⟩ | ⟨hf, hl, ht, ha, hn, hh, e⟩
    · exact .inl ⟨hp', hdn, byFrom_mono h1 h2 hd⟩
    · exact .inr ⟨hf, hl, ht, ha, hn, h1 _ hh, e⟩

/-! ## C84 -/

/-- In the schema, `t` names the class with this oid. -/
def IsClass (cat : Catalogue) (schema t : Str) (oid : Nat) : Prop :=
  ∃ c ∈ cat.classes, c.oid = oid ∧ c.name = t ∧ ∃ s ∈ cat.namespaces, s.oid = c.ns ∧ s.name = schema

/-- `names` are the names of the attributes of `rel` with these numbers. -/
def AttributesAre (cat : Catalogue) (rel : Nat) (nums : List Int) (names : List Str) : Prop :=
  List.Forall₂ (fun k name => ∃ a ∈ cat.attributes, a.rel = rel ∧ a.num = k ∧ a.name = name) nums names

/-- The database has an index that does what `CREATE INDEX ON t (cs)` would do: on the table, usable, for all
rows, a B-tree, with exactly these key columns in this order (up to case). -/
def Serves (cat : Catalogue) (btree schema : Str) (fold : Char → Char) (t : Str) (cs : List Str) : Prop :=
  ∃ i ∈ cat.indexes, IsClass cat schema t i.rel ∧ i.valid = true ∧ i.conditional = false ∧ i.method = btree ∧
    ∃ names, SameNames fold cs names ∧ AttributesAre cat i.rel (i.keys.take i.nkey) names

/-- The indexes of the table are all of the ordinary kind: usable, for all rows, B-trees on columns, no
INCLUDE, on columns whose names PostgreSQL prints without quotes. -/
def PlainIndexes (cat : Catalogue) (btree : Str) (keyword : Str → Bool) (schema t : Str) : Prop :=
  ∀ i ∈ cat.indexes, IsClass cat schema t i.rel → i.valid = true ∧ i.conditional = false ∧ i.method = btree ∧
    i.keys.length ≤ i.nkey ∧ (∀ k ∈ i.keys, k ≠ 0) ∧
    ∀ a ∈ cat.attributes, a.rel = i.rel → a.num ∈ i.keys → quoteIdent keyword a.name = a.name

theorem mem_indexRows (cat : Catalogue) (hok : Ok cat) (keyword : Str → Bool) (expr : Nat → Nat → Str)
    (schema : Str) (tables : List Str) (t : Str) (cols : List Str) :
    (t, cols) ∈ indexRows cat keyword expr schema tables ↔ t ∈ tables ∧ ∃ i ∈ cat.indexes,
      IsClass cat schema t i.rel ∧ cols = i.keys.mapIdx fun k num => indexDef cat keyword expr i k num := by
  simp only [indexRows, List.mem_flatMap, List.mem_filter, decide_eq_true_eq, List.mem_ite_nil_right,
    List.mem_singleton, Prod.mk.injEq, IsClass]
  constructor
  · rintro ⟨x, hx, i, ⟨hi, hxi⟩, c, ⟨hc, hxc⟩, s, ⟨hs, his⟩, ⟨hsn, ht⟩, rfl, rfl⟩
    obtain ⟨i', hi', c', hc', e1, e2, e3⟩ := hok.schemas x hx
    obtain rfl := hok.oids i' hi' i hi (e1.trans hxi)
    obtain rfl := hok.oids c' hc' c hc (e2.trans hxc)
    exact ⟨ht, x, hx, ⟨c', hc, e2, rfl, s, hs, by rw [← e3, his], hsn⟩, rfl⟩
  · rintro ⟨ht, x, hx, ⟨c, hc, hcx, rfl, s, hs, hsn, hss⟩, rfl⟩
    obtain ⟨i', hi', c', hc', e1, e2, e3⟩ := hok.schemas x hx
    obtain rfl := hok.oids c' hc' c hc (e2.trans hcx.symm)
    exact ⟨x, hx, i', ⟨hi', e1.symm⟩, c', ⟨hc, hcx.symm⟩, s, ⟨hs, by rw [e3, hsn]⟩, ⟨hss, ht⟩, rfl, rfl⟩

theorem mapIdx_attributes {cat : Catalogue} (hok : Ok cat) (keyword : Str → Bool) (expr : Nat → Nat → Str)
    (i : Ix) (l : List Int) (f : Nat → Nat) (hl : ∀ k ∈ l, k ≠ 0 ∧ ∃ a ∈ cat.attributes, a.rel = i.rel ∧ a.num = k)
    (hq : ∀ a ∈ cat.attributes, a.rel = i.rel → a.num ∈ l → quoteIdent keyword a.name = a.name)
    (names : List Str) :
    AttributesAre cat i.rel l names ↔ names = l.mapIdx fun k num => indexDef cat keyword expr i (f k) num := by
  induction l generalizing f names with
  | nil => cases names <;> simp [AttributesAre]
  | cons k l ih =>
    obtain ⟨h0, a, ha, har, rfl⟩ := hl k List.mem_cons_self
    have hdef : ∀ j, indexDef cat keyword expr i j a.num = a.name := by
      intro j
      rw [indexDef, if_neg h0]
      cases hfind : cat.attributes.find? fun b => decide (b.rel = i.rel) && decide (b.num = a.num) with
      | none =>
        have := List.find?_eq_none.mp hfind a ha
        simp [har] at this
      | some b =>
        have hb := List.mem_of_find?_eq_some hfind
        have hp := List.find?_some hfind
        rw [Bool.and_eq_true, decide_eq_true_eq, decide_eq_true_eq] at hp
        obtain rfl := hok.numbers b hb a ha (hp.1.trans har.symm) hp.2
        exact hq b hb har List.mem_cons_self
    have ih' := ih (fun k => f (k + 1)) (fun k hk => hl k (List.mem_cons_of_mem _ hk))
      (fun b hb hr hm => hq b hb hr (List.mem_cons_of_mem _ hm))
    rw [List.mapIdx_cons, hdef]
    constructor
    · intro h
      cases h with
      | cons h1 h2 =>
        obtain ⟨b, hb, hbr, hbn, rfl⟩ := h1
        obtain rfl := hok.numbers b hb a ha (hbr.trans har.symm) hbn
        rw [← (ih' _).mp h2]
    · rintro rfl
      exact .cons ⟨a, ha, har, rfl, rfl⟩ ((ih' _).mpr rfl)

/-- for ordinary indexes, what the query lists is what the index does -/
theorem pgHas_iff_serves {cat : Catalogue} (hok : Ok cat) {btree : Str} {keyword : Str → Bool}
    {expr : Nat → Nat → Str} {schema : Str} {tables : List Str} {irows : List (Str × List Str)}
    (hperm : irows.Perm (indexRows cat keyword expr schema tables)) {t : Str}
    (hplain : PlainIndexes cat btree keyword schema t) (ht : t ∈ tables) (fold : Char → Char) (cs : List Str) :
    PgHas fold irows t cs ↔ Serves cat btree schema fold t cs := by
  have key : ∀ i ∈ cat.indexes, IsClass cat schema t i.rel → ∀ names,
      AttributesAre cat i.rel (i.keys.take i.nkey) names ↔
        names = i.keys.mapIdx fun k num => indexDef cat keyword expr i k num := by
    intro i hi hc names
    obtain ⟨-, -, -, h4, h5, h6⟩ := hplain i hi hc
    rw [List.take_of_length_le h4]
    exact mapIdx_attributes hok keyword expr i i.keys id (fun k hk => ⟨h5 k hk, hok.keys i hi k hk (h5 k hk)⟩) h6 names
  constructor
  · rintro ⟨⟨t', cols⟩, hr, rfl, hsame⟩
    obtain ⟨-, i, hi, hc, e⟩ := (mem_indexRows cat hok keyword expr schema tables _ _).mp (hperm.mem_iff.mp hr)
    obtain ⟨h1, h2, h3, -⟩ := hplain i hi hc
    exact ⟨i, hi, hc, h1, h2, h3, cols, hsame, (key i hi hc cols).mpr e⟩
  · rintro ⟨i, hi, hc, -, -, -, names, hsame, hn⟩
    exact ⟨(t, names), hperm.mem_iff.mpr ((mem_indexRows cat hok keyword expr schema tables _ _).mpr
      ⟨ht, i, hi, hc, (key i hi hc names).mp hn⟩), rfl, hsame⟩

/-- **C84.** End to end, complete, over the catalogue alone: if conditions of the query use the columns `cs`
of an ordinary table, not all of them listed in its primary key, then the index on `cs` in this order is
suggested, or the database has one that does the same; provided the indexes of the table are of the ordinary
kind.  (Missing: conditional, hash, unusable indexes and INCLUDE; see `C84_conditional_hides` and
`C84_include_confused`.) -/
theorem C84_complete_partial {T E : Type} (v : PgEnv T E) (ho : v.orders.Ok) (cat : Catalogue) (hok : Ok cat)
    (btree : Str) (keyword : Str → Bool) (expr : Nat → Nat → Str) (schema : Str)
    (hv : Reads v cat keyword expr schema)
    (hcat : (∀ c ∈ cat.classes, c.name.head? ≠ some '<') ∧ ∀ a ∈ cat.attributes, a.name ≠ [])
    (query : Str) (s : PgScope.Select)
    (hp : v.parse query = .ok [.select s]) (hpl : PgScope.Spec.Plain s) (hf : PgScope.Spec.Fresh s)
    (hr : PgScope.Spec.NoRemoteSubquery s) (hs : PgScope.Spec.SingleFrom s)
    (hname : PgScope.Spec.OrdinaryNames v.norm s) (hn : sizeOf s ≤ v.fuel)
    (out : List IndexTarget) (h : pgSuggest v query = .ok out)
    (t : Str) (cs : List Str) (ht : v.norm t = t) (hread : PgScope.Spec.ReadsTable v.norm s t)
    (hne : cs ≠ []) (hnd : cs.Nodup)
    (huse : ∀ n ∈ cs, PgScope.Spec.UsesColumn v.norm
        (fun t n => Column cat schema t n ∨ Leftover cat schema t n) s t n .condition ∨
      PgScope.Spec.UsesAround v.norm
        (fun t n => Column cat schema t n ∨ Leftover cat schema t n) s t n .condition)
    (hpk : ∃ n ∈ cs, ¬(KeyColumn cat schema t n ∨ IncludedColumn cat schema t n))
    (hplain : PlainIndexes cat btree keyword schema t) :
    newIndexTarget t cs ∈ out ∨ Serves cat btree schema v.fold t cs := by
  obtain ⟨names, rows, tables, irows, h1, h2, h3, h4⟩ := C73_pg_complete v ho query s hp hpl hf hr hs hname hn out h
  have hmem : t ∈ names := (h3 t).mpr ⟨t, hread, ht.symm⟩
  have hrows := hv.columns _ _ (List.ne_nil_of_mem hmem) h1
  have hcol := C83_columns cat hok schema names v.f rows hrows
  have hord : PgScope.OrdinaryRows v.f rows := by
    intro x hx
    obtain ⟨-, oid, ⟨c, hc, -, hcn, -⟩, a, ha, -, han, -⟩ := (mem_columnRows cat schema names _ _ _).mp
      (hrows.mem_iff.mp (List.mem_map.mpr ⟨x, hx, rfl⟩) :
        ((v.f x).1, (v.f x).2.1, (v.f x).2.2) ∈ _)
    exact ⟨by rw [← hcn]; exact hcat.1 c hc, by rw [← han]; exact hcat.2 a ha⟩
  rcases h4 hord t cs ht hne hnd
    (fun n hn => (huse n hn).imp
      (usesColumn_mono (fun m hm => (hcol t m).mpr ⟨hmem, hm⟩) (fun t' m hm => ((hcol t' m).mp hm).2))
      (usesAround_mono (fun m hm => (hcol t m).mpr ⟨hmem, hm⟩) (fun t' m hm => ((hcol t' m).mp hm).2)))
    (by
      obtain ⟨n, hn, hnk⟩ := hpk
      exact ⟨n, hn, fun hk => hnk ((C83_primary cat hok schema names v.f rows hrows t n).mp hk).2⟩)
    with h5 | ⟨h5, h6⟩
  · exact .inl h5
  · exact .inr ((pgHas_iff_serves hok (hv.indexes _ _ (List.ne_nil_of_mem h5) h2) hplain h5 v.fold cs).mp h6)

/-- **C84.** An index that the database has is not suggested, if the indexes of the table are of the ordinary
kind.  (Missing: INCLUDE and names that PostgreSQL prints in quotes; see `C84_include_confused` and
`C75_quoted_suggested_again`.) -/
theorem C84_not_again_partial {T E : Type} (v : PgEnv T E) (cat : Catalogue) (hok : Ok cat)
    (btree : Str) (keyword : Str → Bool) (expr : Nat → Nat → Str) (schema : Str)
    (hv : Reads v cat keyword expr schema) (query : Str) (out : List IndexTarget)
    (h : pgSuggest v query = .ok out) (t : Str) (cs : List Str)
    (hplain : PlainIndexes cat btree keyword schema t) (hserve : Serves cat btree schema v.fold t cs) :
    newIndexTarget t cs ∉ out := by
  intro ht
  obtain ⟨stmt, its, -, -, h3⟩ := pgSuggest_ok h
  obtain ⟨tables, existing, h7, h8, h9, -⟩ := removeExisting_ok h3
  obtain ⟨irows, h10, h11⟩ := pgIndexes_ok h7
  obtain ⟨h12, h13⟩ := (h9 _).mp ht
  have hin : t ∈ tables := (h8 t).mpr ⟨_, h12, rfl⟩
  refine h13 ((h11 _ _).mpr ?_)
  have := (pgHas_iff_serves hok (hv.indexes _ _ (List.ne_nil_of_mem hin) h10) hplain hin v.fold cs).mpr hserve
  simpa [newIndexTarget, Function.comp_def] using this

/-! ## Cases -/

/-- an ordinary index does not serve one column if its only key column has another name -/
theorem not_serves_one {cat : Catalogue} {btree schema t c : Str} {fold : Char → Char}
    (h : ∀ i ∈ cat.indexes, i.valid = true → i.conditional = false → i.method = btree →
      ∀ a ∈ cat.attributes, a.rel = i.rel → i.keys.take i.nkey = [a.num] → a.name.map fold ≠ c.map fold) :
    ¬Serves cat btree schema fold t [c] := by
  rintro ⟨i, hi, -, h1, h2, h3, names, hs, hf⟩
  unfold AttributesAre at hf
  generalize hk : i.keys.take i.nkey = ks at hf
  cases hf with
  | nil => simp [SameNames] at hs
  | cons hx hr =>
    obtain ⟨a, ha, har, rfl, rfl⟩ := hx
    cases hr with
    | nil =>
      simp only [SameNames, List.map_cons, List.map_nil, List.cons.injEq, and_true] at hs
      exact h i hi h1 h2 h3 a ha har hk hs.symm
    | cons _ _ => simp [SameNames] at hs

/-- `SELECT id FROM users WHERE email = 1 AND age = 2` -/
def exQuery : PgScope.Select := .mk 1 none [] .none (.clause
  [.mk (.name ["id".toList] false) []] [.aliased (.tableName [] [] "users".toList) [] false]
  (some (.node true [.node true [.name ["email".toList] false, .leaf true true],
    .node true [.name ["age".toList] false, .leaf true true]])) [] none false [])

/-- A database in which `users` has the columns `id`, `email` and `age`; another was dropped.  There is a table
of the same name in another schema.  `users_pkey` and the second index differ in the examples. -/
def exCat (kind : Char) (pkey second : Ix) : Catalogue where
  namespaces := [⟨1, "public".toList⟩, ⟨2, "other".toList⟩]
  classes := [⟨10, "users".toList, 1, kind⟩, ⟨11, "users_pkey".toList, 1, 'i'⟩, ⟨12, "second".toList, 1, 'i'⟩,
    ⟨20, "users".toList, 2, 'r'⟩]
  attributes := [⟨10, "id".toList, 1, false⟩, ⟨10, "email".toList, 2, false⟩,
    ⟨10, "........pg.dropped.3........".toList, 3, true⟩, ⟨10, "age".toList, 4, false⟩,
    ⟨10, "ctid".toList, -1, false⟩, ⟨20, "secret".toList, 1, false⟩]
  indexes := [pkey, second]

/-- `PRIMARY KEY (id)` -/
def pkId : Ix := ⟨11, 10, true, [1], 1, true, false, "btree".toList⟩
/-- `PRIMARY KEY (id) INCLUDE (email)` -/
def pkInclude : Ix := ⟨11, 10, true, [1, 2], 1, true, false, "btree".toList⟩
/-- `PRIMARY KEY (id, email)` -/
def pkBoth : Ix := ⟨11, 10, true, [1, 2], 2, true, false, "btree".toList⟩
/-- an index on `age` -/
def onAge : Ix := ⟨12, 10, false, [4], 1, true, false, "btree".toList⟩
/-- an index on `email` with a WHERE clause -/
def onEmailWhere : Ix := ⟨12, 10, false, [2], 1, true, true, "btree".toList⟩
/-- a hash index on `email` -/
def onEmailHash : Ix := ⟨12, 10, false, [2], 1, true, false, "hash".toList⟩
/-- an index on `email` that `CREATE INDEX CONCURRENTLY` left unusable -/
def onEmailBroken : Ix := ⟨12, 10, false, [2], 1, false, false, "btree".toList⟩
/-- an index on `email`, `INCLUDE (age)` -/
def onEmailInclude : Ix := ⟨12, 10, false, [2, 4], 1, true, false, "btree".toList⟩

/-- the suggester on such a database -/
def exEnv (cat : Catalogue) : PgEnv (Str × Str × Bool) Unit := { exPgEnv with
  parse := fun _ => .ok [.select exQuery]
  cols := fun names => .ok (columnRows cat "public".toList names)
  f := id
  select := fun tables => .ok (indexRows cat (fun _ => false) (fun _ _ => []) "public".toList tables) }

theorem exEnv_reads (cat : Catalogue) :
    Reads (exEnv cat) cat (fun _ => false) (fun _ _ => []) "public".toList := by
  constructor
  · intro names rows _ h
    simp only [exEnv, Except.ok.injEq] at h
    subst h
    simp only [exEnv, List.map_id]
    exact .refl _
  · intro tables irows _ h
    simp only [exEnv, Except.ok.injEq] at h
    subst h
    exact .refl _

theorem exCat_ok (kind : Char) (p q : Ix) (hp : p ∈ [pkId, pkInclude, pkBoth])
    (hq : q ∈ [onAge, onEmailWhere, onEmailHash, onEmailBroken, onEmailInclude]) : Ok (exCat kind p q) := by
  have h1 : ∀ p ∈ [pkId, pkInclude, pkBoth], ∀ q ∈ [onAge, onEmailWhere, onEmailHash, onEmailBroken, onEmailInclude],
      (∀ i ∈ [p, q], i.primary = true → ∀ k ∈ i.keys, 0 < k) ∧ (∀ i ∈ [p, q], i.idx ∈ [11, 12] ∧ i.rel = 10) ∧
      ∀ i ∈ [p, q], ∀ k ∈ i.keys, k ∈ [1, 2, 4] := by decide +kernel
  obtain ⟨h2, h3, h4⟩ := h1 p hp q hq
  refine ⟨?_, h2, ?_, ?_, ?_, ?_⟩
  · show ∀ a ∈ (exCat 'r' pkId onAge).attributes, _
    decide +kernel
  · intro c hc d hd h
    simp only [exCat, List.mem_cons, List.not_mem_nil, or_false] at hc hd
    rcases hc with rfl | rfl | rfl | rfl <;> rcases hd with rfl | rfl | rfl | rfl <;> first | rfl | cases h
  · show ∀ a ∈ (exCat 'r' pkId onAge).attributes, ∀ b ∈ (exCat 'r' pkId onAge).attributes, _
    decide +kernel
  · intro i hi
    obtain ⟨h5, h6⟩ := h3 i hi
    simp only [List.mem_cons, List.not_mem_nil, or_false] at h5
    rcases h5 with h5 | h5
    · exact ⟨⟨11, "users_pkey".toList, 1, 'i'⟩, by simp [exCat], ⟨10, "users".toList, 1, kind⟩, by simp [exCat],
        h5.symm, h6.symm, rfl⟩
    · exact ⟨⟨12, "second".toList, 1, 'i'⟩, by simp [exCat], ⟨10, "users".toList, 1, kind⟩, by simp [exCat],
        h5.symm, h6.symm, rfl⟩
  · intro i hi k hk _
    rw [(h3 i hi).2]
    have h5 := h4 i hi k hk
    have h6 : ∀ k ∈ [(1 : Int), 2, 4], ∃ a ∈ (exCat 'r' pkId onAge).attributes, a.rel = 10 ∧ a.num = k := by
      decide +kernel
    exact h6 k h5

/-- what is suggested if the only other index is on `age` -/
def exOut : List IndexTarget :=
  [newIndexTarget "users".toList ["email".toList],
   newIndexTarget "users".toList ["age".toList, "email".toList],
   newIndexTarget "users".toList ["email".toList, "age".toList],
   newIndexTarget "users".toList ["age".toList, "email".toList, "id".toList],
   newIndexTarget "users".toList ["email".toList, "age".toList, "id".toList]]

theorem exOut_eq : pgSuggest (exEnv (exCat 'r' pkId onAge)) [] = .ok exOut := okOf_some (by decide +kernel)

theorem exQuery_plain : PgScope.Spec.Plain exQuery := PgScope.plain_of _ 20 (by decide +kernel)
theorem exQuery_fresh : PgScope.Spec.Fresh exQuery :=
  PgScope.fresh_of _ 20 (by decide +kernel) (by decide +kernel) (by decide +kernel)
theorem exQuery_noRemote : PgScope.Spec.NoRemoteSubquery exQuery := PgScope.noRemote_of _ 20 (by decide +kernel)
theorem exQuery_single : PgScope.Spec.SingleFrom exQuery := PgScope.single_of _ 20 (by decide +kernel)
theorem exQuery_ordinary : PgScope.Spec.OrdinaryNames PgScope.lower exQuery :=
  PgScope.ordinary_of _ 20 (by decide +kernel)
theorem exQuery_size : sizeOf exQuery ≤ 100000 := by decide +kernel

theorem exQuery_reads : PgScope.Spec.ReadsTable PgScope.lower exQuery "users".toList := by
  refine ⟨[], [], [], [], false, ?_, by simp⟩
  have step : ∀ {x y z : PgScope.Spec.Nd}, PgScope.Spec.binds x = [] → y ∈ PgScope.Spec.kids x →
      PgScope.Spec.Path y [] z → PgScope.Spec.Path x [] z := by
    intro x y z hb hy h
    have := PgScope.Spec.Path.step x y z [] hy h
    rwa [hb] at this
  exact step rfl (y := .b _) (by exact List.mem_cons_self)
    (step rfl (y := .t _) (by simp [PgScope.Spec.kids, PgScope.Spec.near]) (.refl _))

/-- the condition of the query -/
def exWhere : PgScope.Expr := .node true [.node true [.name ["email".toList] false, .leaf true true],
    .node true [.name ["age".toList] false, .leaf true true]]

theorem exQuery_places : PgScope.Spec.places PgScope.lower exQuery =
    [([], .reference, .name ["id".toList] false), ([], .condition, exWhere)] := rfl

theorem exQuery_sources : PgScope.Spec.sources PgScope.lower exQuery = [("users".toList, .table "users".toList)] := rfl

theorem exQuery_noSub (y : PgScope.Select) : ¬PgScope.Spec.SubOf PgScope.lower exQuery y := by
  rintro (⟨t, ht, hy⟩ | ⟨p, hp, hy⟩)
  · simp only [PgScope.Spec.fromItems, exQuery, List.mem_singleton] at ht
    subst ht
    simp [PgScope.Spec.fromSubs] at hy
  · have hb := PgScope.asks_sel hy
    rw [exQuery_places] at hp
    simp only [List.mem_cons, List.not_mem_nil, or_false] at hp
    have key : ∀ e : PgScope.Expr, PgScope.allNd (fun | .s _ => false | _ => true) 20 (.e e) = true →
        ¬PgScope.Spec.Below (.e e) (.s y) := by
      rintro e he ⟨ns, hx⟩
      have := PgScope.allNd_below _ hx 20 he
      cases this
    rcases hp with rfl | rfl
    · exact key _ (by decide +kernel) hb
    · exact key _ (by decide +kernel) hb

/-- the conditions use the columns `email` and `age` of `users` -/
theorem exQuery_uses (Has : Str → Str → Prop) (c : Str) (hc : c ∈ ["email".toList, "age".toList])
    (hh : Has "users".toList c) : PgScope.Spec.UsesColumn PgScope.lower Has exQuery "users".toList c .condition := by
  refine ⟨exQuery, PgScope.below_refl _, ([], .condition, exWhere), by rw [exQuery_places]; simp, rfl, [], c, ?_,
    .inl (.only _ "users".toList _ _ (by rw [exQuery_sources]; simp) hh ?_ fun y hy => absurd hy (exQuery_noSub y))⟩
  · have key : ∀ c : Str, .node true [.name [c] false, .leaf true true] ∈ PgScope.Spec.operands exWhere →
        PgScope.Spec.Mentions exWhere (.column [] c) := fun c h =>
      .operand _ _ _ h (.operand _ (.name [c] false) _ (by simp [PgScope.Spec.operands]) (.column _))
    simp only [List.mem_cons, List.not_mem_nil, or_false] at hc
    rcases hc with rfl | rfl
    · exact key _ (by simp [PgScope.Spec.operands, exWhere])
    · exact key _ (by simp [PgScope.Spec.operands, exWhere])
  · intro b' t' h _
    rw [exQuery_sources] at h
    simp only [List.mem_singleton, Prod.mk.injEq, PgScope.Spec.Src.table.injEq] at h
    exact h.2

theorem exCat_table (p q : Ix) : IsTable (exCat 'r' p q) "public".toList "users".toList 10 :=
  ⟨⟨10, "users".toList, 1, 'r'⟩, by simp [exCat], rfl, rfl, rfl, ⟨1, "public".toList⟩, by simp [exCat], rfl, rfl⟩

theorem exCat_email (p q : Ix) : Column (exCat 'r' p q) "public".toList "users".toList "email".toList :=
  ⟨10, exCat_table p q, ⟨10, "email".toList, 2, false⟩, by simp [exCat], rfl, rfl, by decide, rfl⟩

theorem exCat_age (p q : Ix) : Column (exCat 'r' p q) "public".toList "users".toList "age".toList :=
  ⟨10, exCat_table p q, ⟨10, "age".toList, 4, false⟩, by simp [exCat], rfl, rfl, by decide, rfl⟩

set_option synthInstance.maxSize 2000 in
set_option synthInstance.maxHeartbeats 200000 in
theorem exCat_notKey (p q : Ix) (c : Str) (hp : p ∈ [pkId, pkInclude])
    (hq : q ∈ [onAge, onEmailWhere, onEmailHash, onEmailBroken, onEmailInclude])
    (hc : c ∈ ["email".toList, "age".toList]) : ¬KeyColumn (exCat 'r' p q) "public".toList "users".toList c := by
  rintro ⟨oid, -, i, hi, hr, hpr, a, ha, har, han, hk⟩
  have key : ∀ p ∈ [pkId, pkInclude], ∀ q ∈ [onAge, onEmailWhere, onEmailHash, onEmailBroken, onEmailInclude],
      ∀ i ∈ [p, q], i.primary = true → ∀ a ∈ (exCat 'r' pkId onAge).attributes, a.rel = i.rel →
        a.num ∈ i.keys.take i.nkey → a.name ≠ "email".toList ∧ a.name ≠ "age".toList := by decide +kernel
  obtain ⟨h1, h2⟩ := key p hp q hq i hi hpr a ha (har.trans hr.symm) hk
  simp only [List.mem_cons, List.not_mem_nil, or_false] at hc
  rcases hc with rfl | rfl
  · exact h1 han
  · exact h2 han

theorem exCat_ordinary (kind : Char) (p q : Ix) : (∀ c ∈ (exCat kind p q).classes, c.name.head? ≠ some '<') ∧
    ∀ a ∈ (exCat kind p q).attributes, a.name ≠ [] := by
  constructor
  · intro c hc
    simp only [exCat, List.mem_cons, List.not_mem_nil, or_false] at hc
    have : ∀ n ∈ ["users".toList, "users_pkey".toList, "second".toList], n.head? ≠ some '<' := by decide +kernel
    exact this _ (by rcases hc with rfl | rfl | rfl | rfl <;> simp)
  · show ∀ a ∈ (exCat 'r' pkId onAge).attributes, _
    decide +kernel

theorem exCat_plain : PlainIndexes (exCat 'r' pkId onAge) "btree".toList (fun _ => false) "public".toList
    "users".toList := by
  have : ∀ i ∈ (exCat 'r' pkId onAge).indexes, i.valid = true ∧ i.conditional = false ∧ i.method = "btree".toList ∧
    i.keys.length ≤ i.nkey ∧ (∀ k ∈ i.keys, k ≠ 0) ∧
    ∀ a ∈ (exCat 'r' pkId onAge).attributes, a.rel = i.rel → a.num ∈ i.keys →
      quoteIdent (fun _ => false) a.name = a.name := by decide +kernel
  exact fun i hi _ => this i hi

/-- the hypotheses of `C83_columns`, `C83_primary_partial` and `C83_accepts` hold -/
example := C83_columns (exCat 'r' pkId onAge) (exCat_ok _ _ _ (by simp) (by simp)) "public".toList
  ["users".toList] id _ (.of_eq (List.map_id _))
example := C83_primary_partial (exCat 'r' pkId onAge) (exCat_ok _ _ _ (by simp) (by simp)) (by decide +kernel)
  "public".toList ["users".toList] id _ (.of_eq (List.map_id _))
example := C83_accepts (E := Unit) (exCat 'r' pkId onAge) (exCat_ok _ _ _ (by simp) (by simp)) "public".toList
  ["users".toList] id _ (.of_eq (List.map_id _))

example : columnRows (exCat 'r' pkId onAge) "public".toList ["users".toList] =
    [("users".toList, "id".toList, true), ("users".toList, "email".toList, false),
     ("users".toList, "........pg.dropped.3........".toList, false), ("users".toList, "age".toList, false)] := by
  decide +kernel

/-- the hypotheses of `C83_only_ordinary` and `C83_suggest_sound` hold -/
example : ∃ n, Column (exCat 'r' pkId onAge) "public".toList "users".toList n ∨
    Leftover (exCat 'r' pkId onAge) "public".toList "users".toList n :=
  C83_only_ordinary (exEnv _) PgScope.idOrders_ok _ (exCat_ok _ _ _ (by simp) (by simp)) _ _ _ (exEnv_reads _) _
    exQuery rfl exQuery_noRemote _ exOut_eq _ exQuery_reads

example := C83_suggest_sound (exEnv _) PgScope.idOrders_ok _ (exCat_ok _ _ _ (by simp) (by simp)) _ _ _
    (exEnv_reads _) _ exQuery rfl exQuery_plain exQuery_fresh exQuery_noRemote exQuery_size _ exOut_eq

/-- the hypotheses of `C84_complete_partial` hold: `(email, age)` is suggested -/
example : newIndexTarget "users".toList ["email".toList, "age".toList] ∈ exOut ∨
    Serves (exCat 'r' pkId onAge) "btree".toList "public".toList Char.toLower "users".toList
      ["email".toList, "age".toList] :=
  C84_complete_partial (exEnv _) PgScope.idOrders_ok _ (exCat_ok _ _ _ (by simp) (by simp)) _ _ _ _
    (exEnv_reads _) (exCat_ordinary _ _ _) _ exQuery rfl exQuery_plain exQuery_fresh exQuery_noRemote exQuery_single
    exQuery_ordinary exQuery_size _ exOut_eq _ _ (by decide +kernel) exQuery_reads (by simp) (by decide +kernel)
    (by
      intro n hn
      refine .inl (exQuery_uses _ n hn (.inl ?_))
      simp only [List.mem_cons, List.not_mem_nil, or_false] at hn
      rcases hn with rfl | rfl
      · exact exCat_email _ _
      · exact exCat_age _ _)
    ⟨"email".toList, by simp, by
      rintro (h | ⟨oid, -, i, hi, hr, hp, a, ha, har, han, hk⟩)
      · exact exCat_notKey _ _ _ (by simp) (by simp) (by simp) h
      · have : ∀ i ∈ (exCat 'r' pkId onAge).indexes, i.keys.drop i.nkey = [] := by decide +kernel
        rw [this i hi] at hk
        cases hk⟩
    exCat_plain

/-- the hypotheses of `C84_not_again_partial` hold: there is an index on `age` -/
example : newIndexTarget "users".toList ["age".toList] ∉ exOut :=
  C84_not_again_partial (exEnv _) _ (exCat_ok _ _ _ (by simp) (by simp)) "btree".toList _ _ _ (exEnv_reads _) _ _
    exOut_eq _ _ exCat_plain
    ⟨onAge, by simp [exCat], ⟨⟨10, "users".toList, 1, 'r'⟩, by simp [exCat], rfl, rfl, ⟨1, "public".toList⟩,
      by simp [exCat], rfl, rfl⟩, rfl, rfl, rfl, ["age".toList], rfl,
      .cons ⟨⟨10, "age".toList, 4, false⟩, by simp [exCat], rfl, rfl, rfl⟩ .nil⟩

/-! ## Where the full statements fail -/

/-- **C83**, without the restriction: it fails.  With `PRIMARY KEY (id) INCLUDE (email)`, the column `email` is
taken for part of the primary key: for `WHERE email = 1 AND age = 2` an index on `email` is not suggested,
although the key does not contain it and no index serves. -/
theorem C83_include_hides : ∃ cat out, Ok cat ∧ pgSuggest (exEnv cat) [] = .ok out ∧
    PgScope.Spec.UsesColumn PgScope.lower (Column cat "public".toList) exQuery "users".toList "email".toList
      .condition ∧
    ¬KeyColumn cat "public".toList "users".toList "email".toList ∧
    ¬Serves cat "btree".toList "public".toList Char.toLower "users".toList ["email".toList] ∧
    newIndexTarget "users".toList ["email".toList] ∉ out :=
  ⟨exCat 'r' pkInclude onAge, exOut.drop 1, exCat_ok _ _ _ (by simp) (by simp), okOf_some (by decide +kernel),
    exQuery_uses _ _ (by simp) (exCat_email _ _), exCat_notKey _ _ _ (by simp) (by simp) (by simp),
    not_serves_one (by decide +kernel), by decide +kernel⟩

/-- **C84**, for parts of the primary key: it fails.  With `PRIMARY KEY (id, email)`, an index on `email` is not
suggested for a condition on `email`, although the index of the primary key does not serve it. -/
theorem C84_composite_key_hides : ∃ cat out, Ok cat ∧ pgSuggest (exEnv cat) [] = .ok out ∧
    PgScope.Spec.UsesColumn PgScope.lower (Column cat "public".toList) exQuery "users".toList "email".toList
      .condition ∧
    PlainIndexes cat "btree".toList (fun _ => false) "public".toList "users".toList ∧
    ¬Serves cat "btree".toList "public".toList Char.toLower "users".toList ["email".toList] ∧
    newIndexTarget "users".toList ["email".toList] ∉ out := by
  refine ⟨exCat 'r' pkBoth onAge, exOut.drop 1, exCat_ok _ _ _ (by simp) (by simp), okOf_some (by decide +kernel),
    exQuery_uses _ _ (by simp) (exCat_email _ _), ?_, not_serves_one (by decide +kernel), by decide +kernel⟩
  have : ∀ i ∈ (exCat 'r' pkBoth onAge).indexes, i.valid = true ∧ i.conditional = false ∧
    i.method = "btree".toList ∧ i.keys.length ≤ i.nkey ∧ (∀ k ∈ i.keys, k ≠ 0) ∧
    ∀ a ∈ (exCat 'r' pkBoth onAge).attributes, a.rel = i.rel → a.num ∈ i.keys →
      quoteIdent (fun _ => false) a.name = a.name := by decide +kernel
  exact fun i hi _ => this i hi

/-- **C83.** A query on a partitioned table is refused: the table is said to be unknown. -/
theorem C83_partitioned_refused : Ok (exCat 'p' pkId onAge) ∧
    (match pgSuggest (exEnv (exCat 'p' pkId onAge)) [] with
      | .error (.list (.schemas (.unknownTable t))) => decide (t = "users".toList)
      | _ => false) = true :=
  ⟨exCat_ok _ _ _ (by simp) (by simp), by decide +kernel⟩

/-- **C83.** A dropped column is listed among the columns of the table. -/
theorem C83_dropped_listed : ∃ n, Leftover (exCat 'r' pkId onAge) "public".toList "users".toList n ∧
    ¬Column (exCat 'r' pkId onAge) "public".toList "users".toList n ∧
    HasColumn id (columnRows (exCat 'r' pkId onAge) "public".toList ["users".toList]) "users".toList n :=
  ⟨"........pg.dropped.3........".toList,
    (⟨10, exCat_table _ _, ⟨10, "........pg.dropped.3........".toList, 3, true⟩, by simp [exCat], rfl, rfl,
      by decide, rfl⟩ : Leftover (exCat 'r' pkId onAge) _ _ _),
    (by
      rintro ⟨oid, -, a, ha, -, han, -, hd⟩
      have : ∀ a ∈ (exCat 'r' pkId onAge).attributes, a.name = "........pg.dropped.3........".toList →
        a.dropped = true := by decide +kernel
      rw [this a ha han] at hd
      cases hd),
    ⟨("users".toList, "........pg.dropped.3........".toList, false), by decide +kernel, rfl, rfl⟩⟩

/-- **C84**, without the restriction: it fails.  If the only index on `email` has a WHERE clause, is a hash
index, or is unusable, the index on `email` is not suggested. -/
theorem C84_conditional_hides : ∀ ix ∈ [onEmailWhere, onEmailHash, onEmailBroken],
    ∃ out, Ok (exCat 'r' pkId ix) ∧ pgSuggest (exEnv (exCat 'r' pkId ix)) [] = .ok out ∧
    PgScope.Spec.UsesColumn PgScope.lower (Column (exCat 'r' pkId ix) "public".toList) exQuery "users".toList
      "email".toList .condition ∧
    ¬KeyColumn (exCat 'r' pkId ix) "public".toList "users".toList "email".toList ∧
    ¬Serves (exCat 'r' pkId ix) "btree".toList "public".toList Char.toLower "users".toList ["email".toList] ∧
    newIndexTarget "users".toList ["email".toList] ∉ out := by
  intro ix hix
  have hq : ix ∈ [onAge, onEmailWhere, onEmailHash, onEmailBroken, onEmailInclude] := by
    simp only [List.mem_cons, List.not_mem_nil, or_false] at hix ⊢
    tauto
  have h1 : ∀ ix ∈ [onEmailWhere, onEmailHash, onEmailBroken],
      okOf (pgSuggest (exEnv (exCat 'r' pkId ix)) []) =
        some (newIndexTarget "users".toList ["age".toList] :: exOut.drop 1) := by decide +kernel
  have h2 : ∀ ix ∈ [onEmailWhere, onEmailHash, onEmailBroken], ∀ i ∈ (exCat 'r' pkId ix).indexes, i.valid = true →
      i.conditional = false → i.method = "btree".toList →
      ∀ a ∈ (exCat 'r' pkId ix).attributes, a.rel = i.rel → i.keys.take i.nkey = [a.num] →
        a.name.map Char.toLower ≠ "email".toList.map Char.toLower := by decide +kernel
  exact ⟨_, exCat_ok _ _ _ (by simp) hq, okOf_some (h1 ix hix), exQuery_uses _ _ (by simp) (exCat_email _ _),
    exCat_notKey _ _ _ (by simp) hq (by simp), not_serves_one (h2 ix hix), by decide +kernel⟩

/-- **C84**, without the restriction: it fails in the other direction too.  With an index on `email` that
INCLUDEs `age`, the index on `email` is suggested again, and the one on `(email, age)`, which is missing, is
not. -/
theorem C84_include_confused : ∃ cat out, Ok cat ∧ pgSuggest (exEnv cat) [] = .ok out ∧
    Serves cat "btree".toList "public".toList Char.toLower "users".toList ["email".toList] ∧
    newIndexTarget "users".toList ["email".toList] ∈ out ∧
    ¬Serves cat "btree".toList "public".toList Char.toLower "users".toList ["email".toList, "age".toList] ∧
    newIndexTarget "users".toList ["email".toList, "age".toList] ∉ out := by
  refine ⟨exCat 'r' pkId onEmailInclude, newIndexTarget "users".toList ["age".toList] :: exOut.eraseIdx 2,
    exCat_ok _ _ _ (by simp) (by simp), okOf_some (by decide +kernel), ?_, by decide +kernel, ?_, by decide +kernel⟩
  · exact ⟨onEmailInclude, by simp [exCat], ⟨⟨10, "users".toList, 1, 'r'⟩, by simp [exCat], rfl, rfl,
      ⟨1, "public".toList⟩, by simp [exCat], rfl, rfl⟩, rfl, rfl, rfl, ["email".toList], rfl,
      .cons ⟨⟨10, "email".toList, 2, false⟩, by simp [exCat], rfl, rfl, rfl⟩ .nil⟩
  · rintro ⟨i, hi, -, -, -, -, names, hs, hf⟩
    have h1 := hf.length_eq
    have h2 := congrArg List.length hs
    have h3 : ∀ i ∈ (exCat 'r' pkId onEmailInclude).indexes, (i.keys.take i.nkey).length = 1 := by decide +kernel
    rw [h3 i hi] at h1
    simp only [List.length_map, List.length_cons, List.length_nil] at h2
    omega

end Verif.Cmd.Catalogue
