import Verif.Fields.Lemmas
import Verif.Builder.Props
/-!
# Properties C17-C19: which columns of which tables are suggested
-/
namespace Verif.Fields
open Verif.Index Verif.Lib Verif.Builder Verif.Builder.Spec Spec

/-- Iteration orders of the maps of key strings. -/
def AnyKeyOrder (ord : KeyOrder) : Prop := ∀ path l, (ord path l).Perm l

/-- The order in which `for tName, f := range tableFields` (`index_target_builder.go:48`) visits the
entries, for each scope. -/
abbrev EntryOrder := Nat → FieldMap → FieldMap

/-- `index_target_builder.go:44`: `buildTableFields` for scope number `i`, its map listed in iteration
order. -/
def scopeFields (kord : KeyOrder) (mord : EntryOrder) (schemas : List TableSchema) (i : Nat)
    (s : Scope) : Except Err FieldMap :=
  match buildTableFields kord (schemaMap schemas) [i] s with
  | .error e => .error e
  | .ok m => .ok (mord i m)

/-- `index_target_builder.go:24-64`: `Build` from scopes. -/
def suggest (ord : Order) (kord : KeyOrder) (mord : EntryOrder)
    (srt : List IndexTargetTable → List IndexTargetTable) (schemas : List TableSchema)
    (scopes : List Scope) : Except (BuildErr Err) (List IndexTarget) :=
  build ord srt schemas (scopes.mapIdx (scopeFields kord mord schemas))

/-- All choices left open by the code: set and map orders and the sort. -/
structure Choices (ord : Order) (kord : KeyOrder) (mord : EntryOrder)
    (srt : List IndexTargetTable → List IndexTargetTable) : Prop where
  set : AnyOrder ord
  key : AnyKeyOrder kord
  entry : ∀ i m, (mord i m).Perm m
  sort : IsSort srt

theorem schemaMap_mem {schemas : List TableSchema} {t : Name} {sch : TableSchema}
    (h : schemaMap schemas t = some sch) : sch ∈ schemas ∧ sch.name = t :=
  ⟨List.mem_reverse.mp (List.mem_of_find?_eq_some h), by simpa using List.find?_some h⟩

theorem buildTableFields_ok {ord : KeyOrder} (hord : AnyKeyOrder ord)
    {db : Name → Option TableSchema} {path : List Nat} {s : Scope} {m : FieldMap}
    (h : buildTableFields ord db path s = .ok m) :
    FieldsOK db m ∧ TablesDefined [] s ∧ ColumnsDefined db [] s := by
  simp only [buildTableFields] at h
  split at h
  · cases h
  · next outs m' hc =>
    cases h
    obtain ⟨_, h2, h3, h4⟩ := calcRefs_ok hord s (on := []) (outer := []) (ext := [])
      ⟨by simp, by simp [keys]⟩ hc
    exact ⟨h2, h3, h4⟩

/-! ## C17 -/

/-- **C17 (column resolution).** Every column attributed to a table is a column of that table in the
database, is listed once, and only under its own table. -/
theorem C17_fields_real (ord : KeyOrder) (hord : AnyKeyOrder ord) (db : Name → Option TableSchema)
    (path : List Nat) (s : Scope) (m : FieldMap) (h : buildTableFields ord db path s = .ok m) :
    (m.map (·.1)).Nodup ∧ ∀ e ∈ m, (e.2.map (·.name)).Nodup ∧
      ∃ sch, db e.1 = some sch ∧ ∀ c ∈ e.2, c.table = e.1 ∧ c.name ∈ sch.columns := by
  obtain ⟨⟨h1, h2⟩, _, _⟩ := buildTableFields_ok hord h
  refine ⟨h1, ?_⟩
  intro e he
  obtain ⟨hd, hne, hc⟩ := h2 e he
  refine ⟨hd, ?_⟩
  obtain ⟨c, cs, hcs⟩ := List.exists_cons_of_ne_nil hne
  obtain ⟨_, ⟨sch, hs, _⟩, _⟩ := hc c (by simp [hcs])
  refine ⟨sch, hs, ?_⟩
  intro d hd'
  obtain ⟨ht, ⟨sch', hs', hm⟩, _⟩ := hc d hd'
  rw [hs] at hs'
  cases hs'
  exact ⟨ht, hm⟩

/-- The scopes all resolve, or the first failing one decides the error. -/
theorem scopes_cases (kord : KeyOrder) (mord : EntryOrder) (schemas : List TableSchema) :
    ∀ (scopes : List Scope) (f : Nat → Nat),
    (∃ ms : List FieldMap, scopes.mapIdx (fun i => scopeFields kord mord schemas (f i)) = ms.map .ok ∧
      ms.length = scopes.length ∧
      ∀ m ∈ ms, ∃ i, ∃ s ∈ scopes, ∃ m0, buildTableFields kord (schemaMap schemas) [i] s = .ok m0 ∧
        m = mord i m0) ∨
    (∃ e, Except.error e ∈ scopes.mapIdx (fun i => scopeFields kord mord schemas (f i))) := by
  intro scopes
  induction scopes with
  | nil => intro f; exact .inl ⟨[], by simp⟩
  | cons s ss ih =>
    intro f
    rw [List.mapIdx_cons]
    cases hs : scopeFields kord mord schemas (f 0) s with
    | error e => exact .inr ⟨e, by simp⟩
    | ok m =>
      rcases ih (fun i => f (i + 1)) with ⟨ms, h1, h2, h3⟩ | ⟨e, he⟩
      · refine .inl ⟨m :: ms, by simp [h1], by simp [h2], ?_⟩
        intro m' hm'
        rcases List.mem_cons.mp hm' with rfl | hm'
        · simp only [scopeFields] at hs
          split at hs
          · cases hs
          · next m0 h0 => cases hs; exact ⟨f 0, s, by simp, m0, h0, rfl⟩
        · obtain ⟨i, s', hs', r⟩ := h3 m' hm'
          exact ⟨i, s', by simp [hs'], r⟩
      · exact .inr ⟨e, by simp [he]⟩

theorem buildScopes_error {E : Type} (ord : Order) (schemas : List TableSchema) (e : E)
    (ms : List (Except E TableFields)) (h : .error e ∈ ms) (i : Nat) :
    ∃ e', buildScopes ord schemas i ms = .error e' := by
  induction ms generalizing i with
  | nil => simp at h
  | cons m ms ih =>
    cases m with
    | error e1 => exact ⟨.fields e1, rfl⟩
    | ok m =>
      simp only [buildScopes]
      cases buildTables ord schemas 0 [i] m with
      | error e' => exact ⟨e', rfl⟩
      | ok ts =>
        obtain ⟨e', he'⟩ := ih (by simpa using h) (i + 1)
        exact ⟨e', by simp [he']⟩

theorem scope_facts {kord : KeyOrder} (hk : AnyKeyOrder kord) {schemas : List TableSchema} {i : Nat}
    {s : Scope} {m0 m : FieldMap} (h : buildTableFields kord (schemaMap schemas) [i] s = .ok m0)
    (hp : m.Perm m0) : ∀ e ∈ m, DistinctNames e.2 ∧
      ∃ sch, schemaMap schemas e.1 = some sch ∧ ∀ c ∈ e.2, c.name ∈ sch.columns := by
  intro e he
  obtain ⟨_, h2⟩ := C17_fields_real kord hk _ _ s m0 h
  obtain ⟨hd, sch, hs, hc⟩ := h2 e (hp.mem_iff.mp he)
  exact ⟨hd, sch, hs, fun c hc' => (hc c hc').2⟩

/-- **C13-C17 for whole queries.** When every scope resolves, the list is produced (there is no other
failure), and holds exactly the efficient combinations, not within the primary key, of the columns
attributed to some table of some scope. -/
theorem C17_suggest_exact (ord : Order) (kord : KeyOrder) (mord : EntryOrder)
    (srt : List IndexTargetTable → List IndexTargetTable) (hc : Choices ord kord mord srt)
    (schemas : List TableSchema) (scopes : List Scope)
    (hok : ∀ i s, scopes[i]? = some s →
      ∃ m, buildTableFields kord (schemaMap schemas) [i] s = .ok m) :
    ∃ out, suggest ord kord mord srt schemas scopes = .ok out ∧ ∀ t, t ∈ out ↔
      ∃ i s m, scopes[i]? = some s ∧ buildTableFields kord (schemaMap schemas) [i] s = .ok m ∧
        ∃ e ∈ m, ∃ sch, schemaMap schemas e.1 = some sch ∧ ∃ l, Efficient e.2 l ∧
        (∃ c ∈ l, c.name ∉ sch.primaryKeys) ∧ t = newIndexTarget e.1 (l.map (·.name)) := by
  have key : ∀ (ss : List Scope) (f : Nat → Nat), (∀ i s, ss[i]? = some s →
      ∃ m, buildTableFields kord (schemaMap schemas) [f i] s = .ok m) →
      ∃ ms : List FieldMap, ss.mapIdx (fun i => scopeFields kord mord schemas (f i)) = ms.map .ok ∧
        ∀ m, m ∈ ms ↔ ∃ i s m0, ss[i]? = some s ∧
          buildTableFields kord (schemaMap schemas) [f i] s = .ok m0 ∧ m = mord (f i) m0 := by
    intro ss
    induction ss with
    | nil => intro f _; exact ⟨[], by simp⟩
    | cons s ss ih =>
      intro f h
      obtain ⟨m0, hm0⟩ := h 0 s (by simp)
      obtain ⟨ms, h1, h2⟩ := ih (fun i => f (i + 1)) (fun i s hs => h (i + 1) s (by simpa using hs))
      refine ⟨mord (f 0) m0 :: ms, by rw [List.mapIdx_cons, h1]; simp [scopeFields, hm0], ?_⟩
      intro m
      rw [List.mem_cons, h2]
      constructor
      · rintro (rfl | ⟨i, s', m1, hi, hm1, rfl⟩)
        · exact ⟨0, s, m0, by simp, hm0, rfl⟩
        · exact ⟨i + 1, s', m1, by simpa using hi, hm1, rfl⟩
      · rintro ⟨i, s', m1, hi, hm1, rfl⟩
        cases i with
        | zero =>
          simp only [List.getElem?_cons_zero, Option.some.injEq] at hi
          subst hi
          rw [hm0] at hm1
          cases hm1
          exact .inl rfl
        | succ i => exact .inr ⟨i, s', m1, by simpa using hi, hm1, rfl⟩
  obtain ⟨ms, h1, h2⟩ := key scopes id hok
  have facts : ∀ m ∈ ms, ∀ e ∈ m, DistinctNames e.2 ∧
      ∃ sch, schemaMap schemas e.1 = some sch ∧ ∀ c ∈ e.2, c.name ∈ sch.columns := by
    intro m hm
    obtain ⟨i, s, m0, _, hm0, rfl⟩ := (h2 m).mp hm
    exact scope_facts hc.key hm0 (hc.entry _ _)
  obtain ⟨out, ho, hmem⟩ := build_exact (E := Err) ord hc.set srt hc.sort schemas ms
    (fun m hm e he => by obtain ⟨_, sch, hs, _⟩ := facts m hm e he; simp [hs])
  refine ⟨out, by simp only [suggest]; rw [← ho]; exact congrArg _ h1, ?_⟩
  intro t
  rw [hmem]
  constructor
  · rintro ⟨m, hm, e, he, r⟩
    obtain ⟨i, s, m0, hi, hm0, rfl⟩ := (h2 m).mp hm
    exact ⟨i, s, m0, hi, hm0, e, (hc.entry _ _).mem_iff.mp he, r⟩
  · rintro ⟨i, s, m0, hi, hm0, e, he, r⟩
    exact ⟨mord i m0, (h2 _).mpr ⟨i, s, m0, hi, hm0, rfl⟩, e, (hc.entry _ _).mem_iff.mpr he, r⟩

/-- When a list is produced, every scope was resolved. -/
theorem suggest_ok_scopes {ord : Order} {kord : KeyOrder} {mord : EntryOrder}
    {srt : List IndexTargetTable → List IndexTargetTable} {schemas : List TableSchema}
    {scopes : List Scope} {out : List IndexTarget}
    (h : suggest ord kord mord srt schemas scopes = .ok out) (i : Nat) (s : Scope)
    (hs : scopes[i]? = some s) : ∃ m, buildTableFields kord (schemaMap schemas) [i] s = .ok m := by
  by_contra hc
  have : ∃ e, buildTableFields kord (schemaMap schemas) [i] s = .error e := by
    cases hb : buildTableFields kord (schemaMap schemas) [i] s with
    | error e => exact ⟨e, rfl⟩
    | ok m => exact absurd ⟨m, hb⟩ hc
  obtain ⟨e, he⟩ := this
  have hmem : Except.error e ∈ scopes.mapIdx (scopeFields kord mord schemas) := by
    rw [List.mem_mapIdx]
    obtain ⟨hlt, rfl⟩ := List.getElem?_eq_some_iff.mp hs
    exact ⟨i, hlt, by simp [scopeFields, he]⟩
  obtain ⟨e', he'⟩ := buildScopes_error ord schemas e _ hmem 0
  simp [suggest, build, he'] at h

/-- **C17.** Every suggested index is on a table read from the database, on at least one column, on
columns of that table only, without repetition. -/
theorem C17_only_real_columns (ord : Order) (kord : KeyOrder) (mord : EntryOrder)
    (srt : List IndexTargetTable → List IndexTargetTable) (hc : Choices ord kord mord srt)
    (schemas : List TableSchema) (scopes : List Scope) (out : List IndexTarget)
    (h : suggest ord kord mord srt schemas scopes = .ok out) :
    ∀ t ∈ out, ∃ sch ∈ schemas, sch.name = t.tableName ∧ t.columns ≠ [] ∧
      (t.columns.map (·.name)).Nodup ∧ ∀ c ∈ t.columns, c.name ∈ sch.columns := by
  obtain ⟨out', ho, hmem⟩ := C17_suggest_exact ord kord mord srt hc schemas scopes
    (suggest_ok_scopes h)
  rw [h] at ho
  cases ho
  intro t ht
  obtain ⟨i, s, m, _, hm, e, he, sch, hs, l, hl, _, rfl⟩ := (hmem t).mp ht
  obtain ⟨hd, sch', hs', hcol⟩ := scope_facts hc.key hm (.refl _) e he
  rw [hs] at hs'
  cases hs'
  refine ⟨sch, (schemaMap_mem hs).1, (schemaMap_mem hs).2, ?_, ?_, ?_⟩
  · simpa [newIndexTarget] using hl.1
  · have : (l.map (·.name)).Nodup := by
      refine hl.2.1.map_on ?_
      intro a ha b hb hab
      exact List.inj_on_of_nodup_map hd (hl.2.2.1 a ha) (hl.2.2.1 b hb) hab
    simpa [newIndexTarget, Function.comp_def] using this
  · intro c hcm
    simp only [newIndexTarget, List.map_map, List.mem_map] at hcm
    obtain ⟨d, hd', rfl⟩ := hcm
    exact hcol d (hl.2.2.1 d hd')

/-- **C17.** The error "unknown table exists" never happens: a failure is always a failure to resolve
some name of the query (or a crash while doing so). -/
theorem C17_no_unknown_table (ord : Order) (kord : KeyOrder) (mord : EntryOrder)
    (srt : List IndexTargetTable → List IndexTargetTable) (hc : Choices ord kord mord srt)
    (schemas : List TableSchema) (scopes : List Scope) (t : Name) :
    suggest ord kord mord srt schemas scopes ≠ .error (.unknownTable t) := by
  have gen : ∀ (ss : List Scope) (f : Nat → Nat) (i : Nat),
      buildScopes ord schemas i (ss.mapIdx (fun i => scopeFields kord mord schemas (f i))) ≠
        .error (.unknownTable t) := by
    intro ss
    induction ss with
    | nil => intro f i h; simp [buildScopes] at h
    | cons s ss ih =>
      intro f i
      rw [List.mapIdx_cons]
      simp only [scopeFields]
      cases hb : buildTableFields kord (schemaMap schemas) [f 0] s with
      | error e => simp [buildScopes]
      | ok m =>
        have hall : ∀ e ∈ mord (f 0) m, (schemaMap schemas e.1).isSome = true := by
          intro e he
          obtain ⟨_, sch, hs, _⟩ := scope_facts hc.key hb (hc.entry _ _) e he
          simp [hs]
        simp only [buildScopes, buildTables_ok ord schemas 0 [i] _ hall]
        have := ih (fun i => f (i + 1)) (i + 1)
        split
        · next e he => intro h; rw [he] at this; exact this h
        · simp
  have := gen scopes id 0
  simp only [suggest, build]
  intro h
  split at h
  · next e he => cases h; exact this he
  · cases h

/-! ## C18 -/

/-- **C18.** A query that qualifies a column (or a star), at any depth of subqueries, with a name that
is not a FROM item it can see is an error. -/
theorem C18_undefined_table_is_error (ord : Order) (kord : KeyOrder) (mord : EntryOrder)
    (srt : List IndexTargetTable → List IndexTargetTable) (hk : AnyKeyOrder kord)
    (schemas : List TableSchema) (scopes : List Scope) (s : Scope) (hs : s ∈ scopes)
    (hu : ¬TablesDefined [] s) : ∃ e, suggest ord kord mord srt schemas scopes = .error e := by
  cases h : suggest ord kord mord srt schemas scopes with
  | error e => exact ⟨e, rfl⟩
  | ok out =>
    obtain ⟨i, hi⟩ := List.mem_iff_getElem?.mp hs
    obtain ⟨m, hm⟩ := suggest_ok_scopes h i s hi
    exact absurd (buildTableFields_ok hk hm).2.1 hu

/-- **C18.** A query that uses a column name, at any depth, that is neither a column of the tables it
reads, nor returned by its subqueries, nor visible from outside is an error. -/
theorem C18_undefined_column_is_error (ord : Order) (kord : KeyOrder) (mord : EntryOrder)
    (srt : List IndexTargetTable → List IndexTargetTable) (hk : AnyKeyOrder kord)
    (schemas : List TableSchema) (scopes : List Scope) (s : Scope) (hs : s ∈ scopes)
    (hu : ¬ColumnsDefined (schemaMap schemas) [] s) :
    ∃ e, suggest ord kord mord srt schemas scopes = .error e := by
  cases h : suggest ord kord mord srt schemas scopes with
  | error e => exact ⟨e, rfl⟩
  | ok out =>
    obtain ⟨i, hi⟩ := List.mem_iff_getElem?.mp hs
    obtain ⟨m, hm⟩ := suggest_ok_scopes h i s hi
    exact absurd (buildTableFields_ok hk hm).2.2 hu

/-! ### Examples -/

/-- test data -/
def n (s : String) : Name := s.toList
/-- test data -/
def col (t c : String) (ty : FieldType) : FieldColumn := { table := n t, name := n c, type := ty }
/-- test data: a field without alias -/
def fld (cs : List FieldColumn) : Field := { columns := cs }
/-- test data -/
def idKeys : KeyOrder := fun _ l => l
/-- test data -/
def revKeys : KeyOrder := fun _ l => l.reverse
/-- test data -/
def idEntries : EntryOrder := fun _ l => l

example : Choices idOrder idKeys idEntries sortT :=
  ⟨fun _ _ => .refl _, fun _ _ => .refl _, fun _ _ => .refl _, sortT_isSort⟩

/-- `SELECT u.name FROM users u WHERE u.id IN (SELECT tasks.user_id FROM tasks WHERE tasks.id = u.id)` -/
def exQuery : Scope :=
  .mk (n "<root>")
    [fld [col "u" "name" .reference], fld [col "u" "id" .condition, col "" "" .subquery]]
    [.mk (n "<field0>") [fld [col "tasks" "user_id" .reference],
        fld [col "tasks" "id" .condition, col "u" "id" .condition]] [] [{ name := n "tasks" }] []]
    [{ asName := n "u", name := n "users" }] []

example : suggest idOrder idKeys idEntries sortT exSchemas [exQuery] =
    .ok [newIndexTarget (n "tasks") [n "id", n "user_id"],
      newIndexTarget (n "users") [n "id", n "name"]] := by decide +kernel

/-- `SELECT x.name FROM users` -/
def badQuery : Scope := .mk (n "<root>") [fld [col "x" "name" .reference]] [] [{ name := n "users" }] []

example : ¬TablesDefined [] badQuery := by
  simp [badQuery, TablesDefined, fld, col, aliases, refName, n]

/-- `SELECT nme FROM users` -/
def badQuery2 : Scope := .mk (n "<root>") [fld [col "" "nme" .reference]] [] [{ name := n "users" }] []

example : ¬ColumnsDefined (schemaMap exSchemas) [] badQuery2 := by
  simp only [badQuery2, ColumnsDefined, ownNames, visibleNames, providesAll, providesSub]
  intro h
  have := h.1 (fld [col "" "nme" .reference]) (by simp) (col "" "nme" .reference) (by simp [fld])
    (by simp [IsUse, col])
  revert this
  decide +kernel

end Verif.Fields
