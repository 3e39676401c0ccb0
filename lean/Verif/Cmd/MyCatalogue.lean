import Verif.Cmd.Chain
/-!
# C85: what MySQL's `information_schema` says, and what the suggester takes from it

The two queries sent to MySQL as relational expressions over `COLUMNS` and `STATISTICS`, and the whole of
`Suggest` over a database with these tables.
-/
namespace Verif.Cmd.MyCatalogue
open Verif.Index Verif.Index.Spec Verif.Examine Verif.Builder Verif.Lib
open Verif.PgScope (HasColumn InPrimaryKey Fail)
open Verif.Sql

/-! ## The catalogue (MySQL's documentation, chapter "INFORMATION_SCHEMA Tables"; not from the repository) -/

/-- `information_schema.COLUMNS` -/
structure Col where
  schema : Str
  table : Str
  name : Str
  key : Str
deriving DecidableEq

/-- `information_schema.STATISTICS`: one row for each part of each index.  `COLUMN_NAME` is NULL for an
expression; `SUB_PART` is the number of characters of a prefix.  The last three are not read. -/
structure Stat where
  schema : Str
  table : Str
  index : Str
  seq : Nat
  column : Option Str
  subPart : Option Nat
  visible : Bool
  method : Str
deriving DecidableEq

structure Catalogue where
  cols : List Col
  stats : List Stat
deriving DecidableEq

/-! ## Model of the queries -/

/-- `/repo/infra/mysql/column_info.go:3-14` `columnFetchQuery`: the rows before ORDER BY, which the suggester
does not depend on.  Names are compared as they are, as on a server with `lower_case_table_names=0`. -/
def columnRows (cat : Catalogue) (schema : Str) (tables : List Str) : List Schemas.MysqlColumn :=
  (cat.cols.filter fun c => decide (c.schema = schema) && decide (c.table ∈ tables)).map fun c =>
    { columnName := c.name, columnKey := c.key, tableName := c.table }

/-- `/repo/infra/mysql/index_info.go:3-15` `indexFetchQuery`: the rows before ORDER BY -/
def statRows (cat : Catalogue) (schema : Str) (tables : List Str) : List Stat :=
  cat.stats.filter fun s => decide (s.schema = schema) && decide (s.table ∈ tables)

/-- ORDER BY `TABLE_NAME, INDEX_NAME, SEQ_IN_INDEX`; `le` is the order of the server's collation -/
def Before (le : Str × Str → Str × Str → Prop) (a b : Stat) : Prop :=
  le (a.table, a.index) (b.table, b.index) ∧ ((a.table, a.index) = (b.table, b.index) → a.seq ≤ b.seq)

/-- `/repo/infra/mysql/db.go:84-88`: `Select` scans each row into three strings, which fails for NULL (from
the documentation of `database/sql`; not from the repository). -/
def scan : List Stat → Option (List Infra.FlatRow)
  | [] => some []
  | s :: l => match s.column with
    | none => none
    | some c => match scan l with
      | none => none
      | some r => some (⟨s.table, s.index, c⟩ :: r)

/-- `v` works on a database with the catalogue: its two queries, if they succeed, answer with the rows above,
the second in the order asked for. -/
structure Reads {T E : Type} (v : MyEnv T E) (cat : Catalogue) (schema : Str) : Prop where
  columns : ∀ names rows, v.cols names = .ok rows →
    (rows.map v.f).Perm ((columnRows cat schema names).map Schemas.mysqlRow)
  indexes : ∀ tables irows, v.select tables = .ok irows →
    ∃ le sorted, (∀ a b, le a b → le b a → a = b) ∧ sorted.Perm (statRows cat schema tables) ∧
      sorted.Pairwise (Before le) ∧ scan sorted = some irows

/-! ## Specification -/

/-- The table has a column of this name. -/
def Column (cat : Catalogue) (schema t name : Str) : Prop :=
  ∃ c ∈ cat.cols, c.schema = schema ∧ c.table = t ∧ c.name = name

/-- `COLUMN_KEY` of the column is `PRI`. -/
def Pri (cat : Catalogue) (schema t name : Str) : Prop :=
  ∃ c ∈ cat.cols, c.schema = schema ∧ c.table = t ∧ c.name = name ∧ c.key = "PRI".toList

/-- The parts of an index, first to last. -/
def Parts (cat : Catalogue) (schema t i : Str) (parts : List Stat) : Prop :=
  parts.Pairwise (fun a b => a.seq < b.seq) ∧
  parts.Perm (cat.stats.filter fun s => decide (s.schema = schema) && decide (s.table = t) && decide (s.index = i))

/-- The database has an index that does what `CREATE INDEX ON t (cs)` would do: on the table, visible, a
B-tree on exactly these whole columns in this order (up to case). -/
def Serves (cat : Catalogue) (btree schema : Str) (fold : Char → Char) (t : Str) (cs : List Str) : Prop :=
  ∃ i parts names, parts ≠ [] ∧ Parts cat schema t i parts ∧ parts.map (·.column) = names.map some ∧
    (∀ p ∈ parts, p.subPart = none ∧ p.visible = true ∧ p.method = btree) ∧ SameNames fold cs names

/-- The indexes of the table are all of the ordinary kind: visible B-trees on whole columns. -/
def PlainIndexes (cat : Catalogue) (btree schema t : Str) : Prop :=
  ∀ s ∈ cat.stats, s.schema = schema → s.table = t → s.subPart = none ∧ s.visible = true ∧ s.method = btree

/-- What MySQL ensures: an index has one part of each number; indexes and tables have names. -/
structure Ok (cat : Catalogue) : Prop where
  nodup : cat.stats.Nodup
  seqs : ∀ a ∈ cat.stats, ∀ b ∈ cat.stats, a.schema = b.schema → a.table = b.table → a.index = b.index →
    a.seq = b.seq → a = b
  named : ∀ a ∈ cat.stats, a.table ≠ [] ∨ a.index ≠ []

/-! ## Lemmas -/

theorem scan_key {l : List Stat} {rows : List Infra.FlatRow} (h : scan l = some rows) :
    rows.map (fun r => (r.key, some r.column)) = l.map (fun s => ((s.table, s.index), s.column)) := by
  induction l generalizing rows with
  | nil => simp only [scan, Option.some.injEq] at h; subst h; rfl
  | cons s l ih =>
    simp only [scan] at h
    split at h
    · cases h
    · next c hc =>
      split at h
      · cases h
      · next r hr =>
        cases h
        rw [List.map_cons, List.map_cons, ih hr, hc]
        rfl

theorem scan_cols {l : List Stat} {rows : List Infra.FlatRow} (h : scan l = some rows) (k : Str × Str) :
    (Infra.colsOf rows k).map some = (l.filter fun s => decide ((s.table, s.index) = k)).map (·.column) := by
  have h1 := congrArg (fun m => (m.filter fun p => decide (p.1 = k)).map Prod.snd) (scan_key h)
  simp only [List.filter_map, List.map_map] at h1
  simp only [Infra.colsOf, List.map_map]
  exact h1

theorem scan_some {l : List Stat} {rows : List Infra.FlatRow} (h : scan l = some rows) :
    ∀ s ∈ l, s.column ≠ none := by
  intro s hs e
  have h1 : ((s.table, s.index), s.column) ∈ l.map (fun s => ((s.table, s.index), s.column)) :=
    List.mem_map.mpr ⟨s, hs, rfl⟩
  rw [← scan_key h, e] at h1
  obtain ⟨r, -, hr⟩ := List.mem_map.mp h1
  simp at hr

theorem append_of_map {A B : Type} (f : A → B) {l : List A} {a : List B} {b : B} {c : List B}
    (h : l.map f = a ++ b :: c) : ∃ a' x c', l = a' ++ x :: c' ∧ a'.map f = a ∧ f x = b ∧ c'.map f = c := by
  obtain ⟨a', r, rfl, h1, h2⟩ := List.map_eq_append_iff.mp h
  obtain ⟨x, c', rfl, h3, h4⟩ := List.map_eq_cons_iff.mp h2
  exact ⟨a', x, c', rfl, h1, h3, h4⟩

/-! ## C85 -/

/-- **C85.** The rows come with those of one index next to each other, as the code relies on. -/
theorem C85_rows_ok {T E : Type} (v : MyEnv T E) (cat : Catalogue) (hok : Ok cat) (schema : Str)
    (hv : Reads v cat schema) (tables : List Str) (irows : List Infra.FlatRow)
    (h : v.select tables = .ok irows) : MysqlRowsOk irows := by
  obtain ⟨le, sorted, hle, hperm, hsort, hscan⟩ := hv.indexes _ _ h
  have hk := scan_key hscan
  have hkey : irows.map Infra.FlatRow.key = sorted.map fun s => (s.table, s.index) := by
    have := congrArg (List.map Prod.fst) hk
    simpa [Function.comp_def] using this
  constructor
  · intro a r b s c e hrs m hm
    rw [e] at hkey
    simp only [List.map_append, List.map_cons] at hkey
    obtain ⟨a', r', x, rfl, -, hr', h2⟩ := append_of_map _ hkey.symm
    obtain ⟨b', s', c', rfl, hb', hs', -⟩ := append_of_map _ h2
    obtain ⟨m', hm', e'⟩ := List.mem_map.mp (hb' ▸ List.mem_map.mpr ⟨m, hm, rfl⟩ :
      m.key ∈ b'.map fun s => (s.table, s.index))
    have h3 := (List.pairwise_append.mp hsort).2.1
    rw [List.pairwise_cons] at h3
    have h4 := (h3.1 m' (List.mem_append_left _ hm')).1
    have h5 := ((List.pairwise_append.mp h3.2).2.2 m' hm' s' List.mem_cons_self).1
    rw [hr', e'] at h4
    rw [hs', e', ← hrs] at h5
    exact (hle _ _ h4 h5).symm
  · intro r hr
    have : r.key ∈ sorted.map fun s => (s.table, s.index) := hkey ▸ List.mem_map.mpr ⟨r, hr, rfl⟩
    obtain ⟨s, hs, e⟩ := List.mem_map.mp this
    have hs' := hperm.mem_iff.mp hs
    rw [statRows, List.mem_filter] at hs'
    simp only [Infra.FlatRow.key, Prod.mk.injEq] at e
    rw [← e.1, ← e.2]
    exact hok.named s hs'.1

/-- for ordinary indexes, what the query lists is what the index does -/
theorem mysqlHas_iff_serves {cat : Catalogue} (hok : Ok cat) {btree schema : Str} {tables : List Str}
    {irows : List Infra.FlatRow} {le : Str × Str → Str × Str → Prop} {sorted : List Stat}
    (hperm : sorted.Perm (statRows cat schema tables)) (hsort : sorted.Pairwise (Before le))
    (hscan : scan sorted = some irows) {t : Str} (hplain : PlainIndexes cat btree schema t) (ht : t ∈ tables)
    (fold : Char → Char) (cs : List Str) :
    MysqlHas fold irows t cs ↔ Serves cat btree schema fold t cs := by
  have hparts : ∀ i, Parts cat schema t i (sorted.filter fun s => decide ((s.table, s.index) = (t, i))) := by
    intro i
    constructor
    · have h1 := hsort.filter (fun s => decide ((s.table, s.index) = (t, i)))
      have hn : (sorted.filter fun s => decide ((s.table, s.index) = (t, i))).Nodup := by
        refine List.Nodup.filter _ (hperm.nodup_iff.mpr ?_)
        exact List.Nodup.filter _ hok.nodup
      refine (h1.and hn).imp_of_mem ?_
      rintro a b ha hb ⟨⟨-, h2⟩, h3⟩
      rw [List.mem_filter, decide_eq_true_eq, hperm.mem_iff, statRows, List.mem_filter, Bool.and_eq_true,
        decide_eq_true_eq] at ha hb
      have h4 := h2 (ha.2.trans hb.2.symm)
      refine lt_of_le_of_ne h4 fun h5 => h3 ?_
      have e1 := ha.2.trans hb.2.symm
      simp only [Prod.mk.injEq] at e1
      exact hok.seqs a ha.1.1 b hb.1.1 (ha.1.2.1.trans hb.1.2.1.symm) e1.1 e1.2 h5
    · refine (hperm.filter _).trans ?_
      rw [statRows, List.filter_filter]
      refine .of_eq (List.filter_congr fun s _ => ?_)
      rw [Bool.eq_iff_iff]
      simp only [Bool.and_eq_true, decide_eq_true_eq, Prod.mk.injEq]
      constructor
      · rintro ⟨⟨h1, h2⟩, h3, -⟩
        exact ⟨⟨h3, h1⟩, h2⟩
      · rintro ⟨⟨h1, h2⟩, h3⟩
        exact ⟨⟨h2, h3⟩, h1, h2 ▸ ht⟩
  have huniq : ∀ i parts, Parts cat schema t i parts →
      parts = sorted.filter fun s => decide ((s.table, s.index) = (t, i)) := by
    intro i parts hp
    obtain ⟨h1, h2⟩ := hparts i
    refine List.Perm.eq_of_pairwise (le := fun a b => a.seq < b.seq) ?_ hp.1 h1 (hp.2.trans h2.symm)
    intro a b _ _ h3 h4
    exact absurd h3 (not_lt.mpr h4.le)
  constructor
  · rintro ⟨i, ⟨r, hr, hrt, hri⟩, hsame⟩
    refine ⟨i, _, Infra.colsOf irows (t, i), ?_, hparts i, (scan_cols hscan (t, i)).symm, ?_, hsame⟩
    · have : r.key ∈ sorted.map fun s => (s.table, s.index) := by
        have hk := congrArg (List.map Prod.fst) (scan_key hscan)
        simp only [List.map_map] at hk
        exact (congrArg (r.key ∈ ·) hk).mp (List.mem_map.mpr ⟨r, hr, rfl⟩)
      obtain ⟨s, hs, e⟩ := List.mem_map.mp this
      refine List.ne_nil_of_mem (List.mem_filter.mpr ⟨hs, ?_⟩)
      rw [decide_eq_true_eq, e, Infra.FlatRow.key, hrt, hri]
    · intro p hp
      rw [List.mem_filter, decide_eq_true_eq, hperm.mem_iff, statRows, List.mem_filter, Bool.and_eq_true,
        decide_eq_true_eq, Prod.mk.injEq] at hp
      exact hplain p hp.1.1 hp.1.2.1 hp.2.1
  · rintro ⟨i, parts, names, hne, hp, hcol, -, hsame⟩
    obtain rfl := huniq i parts hp
    have hn : names = Infra.colsOf irows (t, i) := by
      have := hcol.symm.trans (scan_cols hscan (t, i)).symm
      exact (List.map_injective_iff.mpr (Option.some_injective _)) this
    refine ⟨i, ?_, hn ▸ hsame⟩
    obtain ⟨s, hs⟩ := List.exists_mem_of_ne_nil _ hne
    rw [List.mem_filter, decide_eq_true_eq] at hs
    have hk := congrArg (List.map Prod.fst) (scan_key hscan)
    simp only [List.map_map] at hk
    have : (t, i) ∈ irows.map Infra.FlatRow.key :=
      (congrArg ((t, i) ∈ ·) hk).mpr (List.mem_map.mpr ⟨s, hs.1, hs.2⟩)
    obtain ⟨r, hr, e⟩ := List.mem_map.mp this
    simp only [Infra.FlatRow.key, Prod.mk.injEq] at e
    exact ⟨r, hr, e.1, e.2⟩

theorem hasColumn_iff {T : Type} (cat : Catalogue) (schema : Str) (names : List Str) (f : T → Str × Str × Bool)
    (rows : List T) (h : (rows.map f).Perm ((columnRows cat schema names).map Schemas.mysqlRow)) (t n : Str) :
    HasColumn f rows t n ↔ t ∈ names ∧ Column cat schema t n := by
  constructor
  · rintro ⟨x, hx, rfl, rfl⟩
    obtain ⟨c, hc, e⟩ := List.mem_map.mp (h.mem_iff.mp (List.mem_map.mpr ⟨x, hx, rfl⟩))
    obtain ⟨d, hd, rfl⟩ := List.mem_map.mp hc
    rw [List.mem_filter, Bool.and_eq_true, decide_eq_true_eq, decide_eq_true_eq] at hd
    rw [← e]
    exact ⟨hd.2.2, d, hd.1, hd.2.1, rfl, rfl⟩
  · rintro ⟨ht, d, hd, hs, rfl, rfl⟩
    obtain ⟨x, hx, e⟩ := List.mem_map.mp (h.mem_iff.mpr (List.mem_map.mpr ⟨_, List.mem_map.mpr ⟨d,
      List.mem_filter.mpr ⟨hd, by rw [Bool.and_eq_true, decide_eq_true_eq, decide_eq_true_eq]; exact ⟨hs, ht⟩⟩, rfl⟩,
      rfl⟩))
    exact ⟨x, hx, by rw [e]; rfl, by rw [e]; rfl⟩

theorem inPrimaryKey_imp {T : Type} (cat : Catalogue) (schema : Str) (names : List Str) (f : T → Str × Str × Bool)
    (rows : List T) (h : (rows.map f).Perm ((columnRows cat schema names).map Schemas.mysqlRow)) (t n : Str)
    (hk : InPrimaryKey f rows t n) : Pri cat schema t n := by
  obtain ⟨x, hx, e0⟩ := hk
  obtain ⟨c, hc, e⟩ := List.mem_map.mp (h.mem_iff.mp (List.mem_map.mpr ⟨x, hx, e0⟩))
  obtain ⟨d, hd, rfl⟩ := List.mem_map.mp hc
  rw [List.mem_filter, Bool.and_eq_true, decide_eq_true_eq, decide_eq_true_eq] at hd
  simp only [Schemas.mysqlRow, Prod.mk.injEq, decide_eq_true_eq] at e
  exact ⟨d, hd.1, hd.2.1, e.1, e.2.1, e.2.2⟩

theorem usesColumn_mono {norm : Str → Str} {Has Has' : Str → Str → Prop} {t : Str}
    (h1 : ∀ n, Has t n → Has' t n) (h2 : ∀ t n, Has' t n → Has t n) {s : MyScope.Select} {n : Str} {ty : FieldType}
    (h : MyScope.Spec.UsesColumn norm Has s t n ty) : MyScope.Spec.UsesColumn norm Has' s t n ty := by
  obtain ⟨as, e, q, m, h3, h4, h5, h6, h7, h8⟩ := h
  refine ⟨as, e, q, m, h3, h4, h5, h6, h1 _ h7, ?_⟩
  rcases h8 with h8 | ⟨h8, h9⟩
  · exact .inl h8
  · exact .inr ⟨h8, fun T hT hT' => h9 T hT (h2 _ _ hT')⟩

/-- **C85.** Every column of a suggested index is a column of that table of the database, and the query
mentions it. -/
theorem C85_suggest_sound {T E : Type} (v : MyEnv T E) (ho : v.orders.Ok) (cat : Catalogue) (schema : Str)
    (hv : Reads v cat schema) (hcat : ∀ c ∈ cat.cols, c.table ≠ []) (query : Str)
    (out : List IndexTarget) (h : mysqlSuggest v query = .ok out) (t : IndexTarget) (ht : t ∈ out) :
    ∀ c ∈ t.columns, Column cat schema t.tableName c.name := by
  obtain ⟨s, rest, names, rows, tables, irows, -, h1, h2, h3⟩ := C73_mysql_sound v ho query out h
  have hcol := hasColumn_iff cat schema names v.f rows (hv.columns _ _ h1)
  have hne : ∀ x ∈ rows, (v.f x).1 ≠ [] := by
    intro x hx e
    obtain ⟨-, d, hd, -, h5, -⟩ := (hcol (v.f x).1 (v.f x).2.1).mp ⟨x, hx, rfl, rfl⟩
    exact hcat d hd (h5.trans e)
  obtain ⟨-, -, -, h4, -⟩ := h3 hne t ht
  intro c hc
  exact ((hcol _ _).mp (h4 c hc).1).2

/-- **C85.** End to end, complete, over the catalogue alone: if conditions of the query use the columns `cs` of
a table it reads, not all of them marked `PRI`, then the index on `cs` in this order is suggested, or the
database has one that does the same; provided the indexes of the table are visible B-trees on whole columns.
(Missing: other indexes, see `C85_prefix_hides`; conditions of nested queries, see C72.) -/
theorem C85_complete_partial {T E : Type} (v : MyEnv T E) (ho : v.orders.Ok) (cat : Catalogue) (hok : Ok cat)
    (btree schema : Str) (hv : Reads v cat schema) (query : Str) (s : MyScope.Select) (rest : List MyScope.Stmt)
    (hp : v.parse query = .ok (.select s :: rest)) (out : List IndexTarget) (h : mysqlSuggest v query = .ok out)
    (name : Str) (cs : List Str) (hread : MyScope.Spec.ReadsTable v.norm s name) (hne : cs ≠ []) (hnd : cs.Nodup)
    (huse : ∀ n ∈ cs, MyScope.Spec.UsesColumn v.norm (Column cat schema) s (v.norm name) n .condition)
    (hpk : ∃ n ∈ cs, ¬Pri cat schema (v.norm name) n)
    (hplain : PlainIndexes cat btree schema (v.norm name)) :
    newIndexTarget (v.norm name) cs ∈ out ∨ Serves cat btree schema v.fold (v.norm name) cs := by
  obtain ⟨names, rows, tables, irows, h1, h2, h3, h4⟩ := C73_mysql_complete_partial v ho query s rest hp out h
  have hcol := hasColumn_iff cat schema names v.f rows (hv.columns _ _ h1)
  obtain ⟨le, sorted, -, hperm, hsort, hscan⟩ := hv.indexes _ _ h2
  rcases h4 (C85_rows_ok v cat hok schema hv _ _ h2) name cs hread hne hnd
    (fun n hn => usesColumn_mono (fun m hm => (hcol _ m).mpr ⟨h3 name hread, hm⟩) (fun t' m hm => ((hcol t' m).mp hm).2)
      (huse n hn))
    (by
      obtain ⟨n, hn, hnk⟩ := hpk
      exact ⟨n, hn, fun hk => hnk (inPrimaryKey_imp cat schema names v.f rows (hv.columns _ _ h1) _ n hk)⟩)
    with h5 | ⟨h5, h6⟩
  · exact .inl h5
  · exact .inr ((mysqlHas_iff_serves hok hperm hsort hscan hplain h5 v.fold cs).mp h6)

/-- **C85.** An index that the database has is not suggested, if the indexes of the table are of the ordinary
kind. -/
theorem C85_not_again {T E : Type} (v : MyEnv T E) (cat : Catalogue) (hok : Ok cat)
    (btree schema : Str) (hv : Reads v cat schema) (query : Str) (out : List IndexTarget)
    (h : mysqlSuggest v query = .ok out) (t : Str) (cs : List Str)
    (hplain : PlainIndexes cat btree schema t) (hserve : Serves cat btree schema v.fold t cs) :
    newIndexTarget t cs ∉ out := by
  intro ht
  obtain ⟨stmt, rest, its, -, -, h3⟩ := mysqlSuggest_ok h
  obtain ⟨tables, existing, h7, h8, h9, -⟩ := removeExisting_ok h3
  obtain ⟨irows, h10, h11⟩ := mysqlIndexes_ok h7
  obtain ⟨h12, h13⟩ := (h9 _).mp ht
  have hin : t ∈ tables := (h8 t).mpr ⟨_, h12, rfl⟩
  obtain ⟨le, sorted, -, hperm, hsort, hscan⟩ := hv.indexes _ _ h10
  refine h13 ((h11 (C85_rows_ok v cat hok schema hv _ _ h10) _ _).mpr ?_)
  have := (mysqlHas_iff_serves hok hperm hsort hscan hplain hin v.fold cs).mpr hserve
  simpa [newIndexTarget, Function.comp_def] using this

/-- **C85.** If any table with a possible index has an index with an expression in it, there are no
suggestions at all: reading the indexes fails. -/
theorem C85_functional_fails {T E : Type} (v : MyEnv T E) (cat : Catalogue) (schema : Str)
    (hv : Reads v cat schema) (query : Str) (stmt : MyScope.Stmt) (rest : List MyScope.Stmt)
    (hp : v.parse query = .ok (stmt :: rest)) (its : List IndexTarget)
    (hl : MyScope.listPossibleIndexes v.orders v.norm v.cols v.f stmt = some (.ok its))
    (t : IndexTarget) (ht : t ∈ its)
    (hs : ∃ s ∈ cat.stats, s.schema = schema ∧ s.table = t.tableName ∧ s.column = none) :
    ∀ out, mysqlSuggest v query ≠ .ok out := by
  intro out h
  obtain ⟨stmt', rest', its', h1, h2, h3⟩ := mysqlSuggest_ok h
  rw [hp] at h1
  simp only [Except.ok.injEq, List.cons.injEq] at h1
  obtain ⟨rfl, rfl⟩ := h1
  rw [hl] at h2
  simp only [Option.some.injEq, Except.ok.injEq] at h2
  subst h2
  obtain ⟨tables, existing, h7, h8, -, -⟩ := removeExisting_ok h3
  obtain ⟨irows, h10, -⟩ := mysqlIndexes_ok h7
  obtain ⟨le, sorted, -, hperm, -, hscan⟩ := hv.indexes _ _ h10
  obtain ⟨s, hs1, hs2, hs3, hs4⟩ := hs
  refine scan_some hscan s (hperm.mem_iff.mpr ?_) hs4
  rw [statRows, List.mem_filter, Bool.and_eq_true, decide_eq_true_eq, decide_eq_true_eq]
  exact ⟨hs1, hs2, (h8 _).mpr ⟨t, ht, hs3.symm⟩⟩

/-! ## Cases -/

/-- the schema `app` with the tables of `MyScope.exRows`; `first` is an index of `tasks` -/
def exCat (first : Stat) : Catalogue where
  cols := MyScope.exRows.map fun r =>
    ⟨"app".toList, r.1, r.2.1, if r.2.2 then "PRI".toList else []⟩
  stats := [first,
    ⟨"app".toList, "tasks".toList, "j".toList, 1, some "status".toList, none, true, "BTREE".toList⟩,
    ⟨"app".toList, "tasks".toList, "j".toList, 2, some "user_id".toList, none, true, "BTREE".toList⟩,
    ⟨"app".toList, "users".toList, "PRIMARY".toList, 1, some "id".toList, none, true, "BTREE".toList⟩]

/-- the index `i` on `status`, of some kind -/
def onStatus (subPart : Option Nat) (visible : Bool) (method : String) : Stat :=
  ⟨"app".toList, "tasks".toList, "i".toList, 1, some "status".toList, subPart, visible, method.toList⟩

/-- an index on `(lower(status))` -/
def onLower : Stat := ⟨"app".toList, "tasks".toList, "i".toList, 1, none, none, true, "BTREE".toList⟩

/-- the position of an index in the order -/
def exRank (k : Str × Str) : Nat :=
  [("tasks".toList, "i".toList), ("tasks".toList, "j".toList), ("users".toList, "PRIMARY".toList)].idxOf k

def exLe (a b : Str × Str) : Prop := a = b ∨ exRank a < exRank b

instance (a b : Str × Str) : Decidable (exLe a b) := inferInstanceAs (Decidable (_ ∨ _))
instance (a b : Stat) : Decidable (Before exLe a b) := inferInstanceAs (Decidable (_ ∧ _))

/-- the suggester on such a database -/
def exEnv (cat : Catalogue) : MyEnv Schemas.MysqlColumn Unit where
  parse q := if q = [] then .ok [] else .ok [.select MyScope.exQuery]
  orders := MyScope.idOrders
  norm := PgScope.lower
  cols names := .ok (columnRows cat "app".toList names)
  f := Schemas.mysqlRow
  select tables := match scan (statRows cat "app".toList tables) with
    | none => .error ()
    | some r => .ok r
  fold := Char.toLower

theorem exEnv_reads (cat : Catalogue) (h : cat.stats.Pairwise (Before exLe)) :
    Reads (exEnv cat) cat "app".toList := by
  constructor
  · intro names rows h
    simp only [exEnv, Except.ok.injEq] at h
    subst h
    exact .refl _
  · intro tables irows hi
    simp only [exEnv] at hi
    split at hi
    · cases hi
    · next r hr =>
      cases hi
      refine ⟨exLe, _, ?_, .refl _, h.filter _, hr⟩
      rintro a b (h1 | h1) (h2 | h2)
      · exact h1
      · exact h1
      · exact h2.symm
      · omega

theorem exCat_sorted : ∀ first ∈ [onStatus none true "BTREE", onStatus (some 3) true "BTREE",
    onStatus none false "BTREE", onStatus none true "FULLTEXT", onLower],
    (exCat first).stats.Pairwise (Before exLe) := by decide +kernel

theorem exCat_ok : ∀ first ∈ [onStatus none true "BTREE", onStatus (some 3) true "BTREE",
    onStatus none false "BTREE", onStatus none true "FULLTEXT", onLower], Ok (exCat first) := by
  intro first hf
  refine ⟨?_, ?_, ?_⟩ <;> (revert first; decide +kernel)

/-- the index on `user_id` is missing, among others -/
def exOut : List IndexTarget :=
  [newIndexTarget "tasks".toList ["user_id".toList],
   newIndexTarget "tasks".toList ["user_id".toList, "status".toList],
   newIndexTarget "users".toList ["id".toList, "name".toList]]

theorem exOut_eq : mysqlSuggest (exEnv (exCat (onStatus none true "BTREE"))) ['q'] = .ok exOut :=
  okOf_some (by decide +kernel)

theorem exUses (first : Stat) (m : Str) (hm : m ∈ ["user_id".toList, "status".toList]) :
    MyScope.Spec.UsesColumn PgScope.lower (Column (exCat first) "app".toList) MyScope.exQuery
      (PgScope.lower "tasks".toList) m .condition := by
  refine usesColumn_mono ?_ ?_ (MyScope.exQuery_uses m hm)
  · rintro n ⟨r, hr, h1, h2⟩
    exact ⟨_, List.mem_map.mpr ⟨r, hr, rfl⟩, rfl, h1, h2⟩
  · rintro t n ⟨c, hc, -, h1, h2⟩
    obtain ⟨r, hr, rfl⟩ := List.mem_map.mp hc
    exact ⟨r, hr, h1, h2⟩

theorem exNotPri (first : Stat) : ¬Pri (exCat first) "app".toList "tasks".toList "status".toList := by
  rintro ⟨c, hc, -, h1, h2, h3⟩
  obtain ⟨r, hr, rfl⟩ := List.mem_map.mp hc
  have : ∀ r ∈ MyScope.exRows, r.1 = "tasks".toList → r.2.1 = "status".toList →
      (if r.2.2 then "PRI".toList else []) ≠ "PRI".toList := by decide +kernel
  exact this r hr h1 h2 h3

theorem exPlain : PlainIndexes (exCat (onStatus none true "BTREE")) "BTREE".toList "app".toList "tasks".toList := by
  unfold PlainIndexes; decide +kernel

/-- the hypotheses of `C85_complete_partial` and the others hold: `(user_id, status)` is suggested -/
example : newIndexTarget (PgScope.lower "tasks".toList) ["user_id".toList, "status".toList] ∈ exOut ∨
    Serves (exCat (onStatus none true "BTREE")) "BTREE".toList "app".toList Char.toLower
      (PgScope.lower "tasks".toList) ["user_id".toList, "status".toList] :=
  C85_complete_partial (exEnv _) MyScope.idOrders_ok _ (exCat_ok _ (by simp)) _ _
    (exEnv_reads _ (exCat_sorted _ (by simp))) ['q'] MyScope.exQuery [] rfl _ exOut_eq _ _ MyScope.exQuery_reads_tasks
    (by simp) (by decide +kernel) (exUses _)
    ⟨"status".toList, by simp, by
      rw [show (exEnv (exCat (onStatus none true "BTREE"))).norm "tasks".toList = "tasks".toList by decide +kernel]
      exact exNotPri _⟩
    (by
      rw [show (exEnv (exCat (onStatus none true "BTREE"))).norm "tasks".toList = "tasks".toList by decide +kernel]
      exact exPlain)

/-- there is an index on `(status, user_id)`, so it is not suggested -/
example : newIndexTarget "tasks".toList ["status".toList, "user_id".toList] ∉ exOut :=
  C85_not_again (exEnv _) _ (exCat_ok _ (by simp)) _ _ (exEnv_reads _ (exCat_sorted _ (by simp))) _ _ exOut_eq _ _
    exPlain ⟨"j".toList,
      (exCat (onStatus none true "BTREE")).stats.filter fun s => decide (s.index = "j".toList),
      ["status".toList, "user_id".toList], by decide +kernel, by unfold Parts; decide +kernel, by decide +kernel,
      by decide +kernel, rfl⟩

example := C85_suggest_sound (exEnv _) MyScope.idOrders_ok _ _ (exEnv_reads _ (exCat_sorted _ (by simp)))
  (by decide +kernel) _ _ exOut_eq

/-- the index on `lower(status)` prevents all suggestions -/
theorem C85_functional_example : ∀ out, mysqlSuggest (exEnv (exCat onLower)) ['q'] ≠ .ok out :=
  C85_functional_fails (exEnv (exCat onLower)) _ _ (exEnv_reads _ (exCat_sorted _ (by simp))) _ _ [] rfl
    MyScope.exOut (MyScope.outOf_some (by decide +kernel)) (newIndexTarget (Fields.n "tasks") [Fields.n "status"])
    (by decide +kernel) (by decide +kernel)

/-! ## Where the full statement fails -/

theorem not_serves_one {cat : Catalogue} {btree schema t c : Str} {fold : Char → Char}
    (h : ∀ s ∈ cat.stats, s.schema = schema → s.table = t → s.subPart = none → s.visible = true → s.method = btree →
      (∃ c', s.column = some c' ∧ c.map fold = c'.map fold) →
      ∃ s' ∈ cat.stats, s'.schema = schema ∧ s'.table = t ∧ s'.index = s.index ∧ s'.seq ≠ s.seq) :
    ¬Serves cat btree schema fold t [c] := by
  rintro ⟨i, parts, names, hne, ⟨-, hperm⟩, hcol, hall, hs⟩
  have hl : parts.length = 1 := by
    have h1 := congrArg List.length hcol
    have h2 := congrArg List.length hs
    simp only [List.length_map, List.length_cons, List.length_nil] at h1 h2
    omega
  obtain ⟨p, rfl⟩ := List.length_eq_one_iff.mp hl
  have hmem : ∀ s, s ∈ cat.stats → s.schema = schema → s.table = t → s.index = i → s = p := by
    intro s h1 h2 h3 h4
    refine List.mem_singleton.mp (hperm.mem_iff.mpr (List.mem_filter.mpr ⟨h1, ?_⟩))
    simp only [Bool.and_eq_true, decide_eq_true_eq]
    exact ⟨⟨h2, h3⟩, h4⟩
  have hp := hperm.mem_iff.mp List.mem_cons_self
  rw [List.mem_filter] at hp
  simp only [Bool.and_eq_true, decide_eq_true_eq] at hp
  obtain ⟨hp, ⟨h1, h2⟩, h3⟩ := hp
  obtain ⟨h4, h5, h6⟩ := hall p List.mem_cons_self
  have hc : ∃ c', p.column = some c' ∧ c.map fold = c'.map fold := by
    match names, hcol, hs with
    | [], hcol, _ => simp at hcol
    | [a], hcol, hs =>
      simp only [List.map_cons, List.map_nil, List.cons.injEq, and_true] at hcol
      simp only [SameNames, List.map_cons, List.map_nil, List.cons.injEq, and_true] at hs
      exact ⟨a, hcol, hs⟩
    | _ :: _ :: _, hcol, _ => simp at hcol
  obtain ⟨s', h7, h8, h9, h10, h11⟩ := h p hp h1 h2 h4 h5 h6 hc
  exact h11 (congrArg Stat.seq (hmem s' h7 h8 h9 (h10.trans h3)))

/-- **C85**, without the restriction: it fails.  If the only index on `status` is on its first three
characters, invisible to the optimizer, or for full-text search, the index on `status` is not suggested. -/
theorem C85_prefix_hides : ∀ first ∈ [onStatus (some 3) true "BTREE", onStatus none false "BTREE",
    onStatus none true "FULLTEXT"], ∃ out, Ok (exCat first) ∧ Reads (exEnv (exCat first)) (exCat first) "app".toList ∧
    mysqlSuggest (exEnv (exCat first)) ['q'] = .ok out ∧
    MyScope.Spec.UsesColumn PgScope.lower (Column (exCat first) "app".toList) MyScope.exQuery
      (PgScope.lower "tasks".toList) "status".toList .condition ∧
    ¬Pri (exCat first) "app".toList "tasks".toList "status".toList ∧
    ¬Serves (exCat first) "BTREE".toList "app".toList Char.toLower "tasks".toList ["status".toList] ∧
    newIndexTarget "tasks".toList ["status".toList] ∉ out := by
  intro first hf
  have hf' : first ∈ [onStatus none true "BTREE", onStatus (some 3) true "BTREE",
      onStatus none false "BTREE", onStatus none true "FULLTEXT", onLower] := by
    simp only [List.mem_cons, List.not_mem_nil, or_false] at hf ⊢
    tauto
  have h1 : ∀ first ∈ [onStatus (some 3) true "BTREE", onStatus none false "BTREE",
    onStatus none true "FULLTEXT"], okOf (mysqlSuggest (exEnv (exCat first)) ['q']) = some exOut := by decide +kernel
  refine ⟨_, exCat_ok _ hf', exEnv_reads _ (exCat_sorted _ hf'), okOf_some (h1 first hf), exUses _ _ (by simp),
    exNotPri _, not_serves_one ?_, by decide +kernel⟩
  rintro s hs - h3 h4 h5 h6 ⟨c', h7, h8⟩
  simp only [exCat, List.mem_cons, List.not_mem_nil, or_false] at hs hf
  rcases hs with rfl | rfl | rfl | rfl
  · exfalso
    rcases hf with rfl | rfl | rfl
    · simp [onStatus] at h4
    · simp [onStatus] at h5
    · revert h6; decide +kernel
  · exact ⟨⟨"app".toList, "tasks".toList, "j".toList, 2, some "user_id".toList, none, true, "BTREE".toList⟩,
      by simp [exCat], rfl, rfl, rfl, by simp⟩
  · simp only [Option.some.injEq] at h7
    subst h7
    exfalso
    revert h8
    decide +kernel
  · exfalso
    revert h3
    decide +kernel

end Verif.Cmd.MyCatalogue
