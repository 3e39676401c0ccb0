import Verif.MyScope.Scopes
import Verif.PgScope.EndToEnd
/-!
# C72: from a MySQL query to index suggestions
-/
namespace Verif.MyScope
open Verif.Index Verif.Builder Verif.Fields Verif.Fields.Spec Verif.Lib Verif.MyScope.Spec
open Verif.PgScope (HasColumn InPrimaryKey)

/-! ## Specification -/

namespace Spec

/-- In the SELECT, the column written `q.n` (or `n`, when `q` is empty) can only mean a column of the table
`t` of its own FROM clause: by its qualifier, or because no other FROM item has such a column. -/
def ColumnOfTable (norm : Str → Str) (has : Str → Str → Prop) (s : Select) (q n t : Str) : Prop :=
  (∃ T ∈ tablesOf norm s, T.name = t) ∧ has t (norm n) ∧
  ((norm q ≠ [] ∧ (∃ T ∈ tablesOf norm s, refName T = norm q) ∧
      ∀ T ∈ tablesOf norm s, refName T = norm q → T.name = t) ∨
   (norm q = [] ∧ ∀ T ∈ tablesOf norm s, has T.name (norm n) → T.name = t))

/-- One of the SELECT's own clauses, of type `ty`, uses the column `n` of the table `t`. -/
def UsesColumn (norm : Str → Str) (has : Str → Str → Prop) (s : Select) (t n : Str) (ty : FieldType) : Prop :=
  ∃ as e q m, (as, ty, .expr e) ∈ places norm s ∧ Mentions e q m ∧ n = norm m ∧
    ColumnOfTable norm has s q m t

end Spec

/-! ## Lemmas -/

variable {ε T : Type} {o : Orders} {norm : Str → Str} {cols : List Str → Except ε (List T)}
  {f : T → Name × Name × Bool}

/-- what a success goes through -/
theorem list_ok {stmt : Stmt} {out : List IndexTarget}
    (h : listPossibleIndexes o norm cols f stmt = some (.ok out)) :
    ∃ s names rows schemas scopes, stmt = .select s ∧
      collectTableNames norm o.names stmt = some (.ok names) ∧
      cols names = .ok rows ∧ Schemas.collectTableSchemas (ε := ε) (.ok rows) f names = .ok schemas ∧
      collectStmtScopes norm stmt = .ok scopes ∧
      suggest o.set o.key o.entry o.sort schemas scopes = .ok out := by
  simp only [listPossibleIndexes] at h
  split at h
  · cases h
  · cases h
  · next names hn =>
    split at h
    · cases h
    · cases h
    · next schemas hs =>
      split at h
      · cases h
      · next scopes hsc =>
        split at h
        · cases h
        · cases h
        · next its hi =>
          simp only [Option.some.injEq, Except.ok.injEq] at h
          subst h
          cases stmt with
          | setOpr => cases hsc
          | other => cases hsc
          | select s =>
            cases hc : cols names with
            | error e => rw [hc] at hs; simp [Schemas.collectTableSchemas] at hs
            | ok rows => exact ⟨s, names, rows, schemas, scopes, rfl, hn, hc, by rw [← hc]; exact hs, hsc, hi⟩

theorem scopes_errors {stmt : Stmt} {es : List Err} (h : collectStmtScopes norm stmt = .error es) :
    es ≠ [] := by
  cases stmt with
  | setOpr => simp [collectStmtScopes] at h; subst h; simp
  | other => simp [collectStmtScopes] at h; subst h; simp
  | select s =>
    simp only [collectStmtScopes] at h
    split at h
    · next he => simp only [Except.error.injEq] at h; subst h; exact he
    · cases h

theorem inside_flat {x : Scope} {name : Name} {fields : List Field} {tables : List Table}
    (h : Inside x (.mk name fields [] tables [])) : x = .mk name fields [] tables [] := by
  cases h with
  | here => rfl
  | sub h _ => simp [Scope.subScopes] at h
  | field h _ => simp [Scope.fieldScopes] at h

theorem field_place {ps : List (Str × FieldType × Item)} {all : List Field}
    (h : List.Forall₂ (FieldOf norm) ps all) {fl : Field} (hf : fl ∈ all) :
    ∃ p ∈ ps, FieldOf norm p fl := by
  induction h with
  | nil => simp at hf
  | cons h1 _ ih =>
    rcases List.mem_cons.mp hf with rfl | hf
    · exact ⟨_, by simp, h1⟩
    · obtain ⟨p, hp, h⟩ := ih hf
      exact ⟨p, by simp [hp], h⟩

theorem place_field {ps : List (Str × FieldType × Item)} {all : List Field}
    (h : List.Forall₂ (FieldOf norm) ps all) {p : Str × FieldType × Item} (hp : p ∈ ps) :
    ∃ fl ∈ all, FieldOf norm p fl := by
  induction h with
  | nil => simp at hp
  | cons h1 _ ih =>
    rcases List.mem_cons.mp hp with rfl | hp
    · exact ⟨_, by simp, h1⟩
    · obtain ⟨fl, hf, h⟩ := ih hp
      exact ⟨fl, by simp [hf], h⟩

theorem places_type (s : Select) (p : Str × FieldType × Item) (h : p ∈ places norm s) :
    p.2.1 = .reference ∨ p.2.1 = .condition := by
  cases s
  simp only [places, List.mem_append, List.mem_map] at h
  rcases h with (((((⟨a, -, rfl⟩ | ⟨a, -, rfl⟩) | ⟨a, -, rfl⟩) | ⟨a, -, rfl⟩) | ⟨a, -, rfl⟩) | ⟨a, -, rfl⟩) |
    ⟨a, -, rfl⟩
  · cases a <;> exact .inl rfl
  all_goals simp [plainPlace]

/-- a use in a described scope is a mention in a place -/
theorem use_mention {p : Str × FieldType × Item} {fl : Field} {u : FieldColumn} (h : FieldOf norm p fl)
    (hu : u ∈ fl.columns) (huse : IsUse u) :
    ∃ e q n, p.2.2 = .expr e ∧ Mentions e q n ∧ u = { table := norm q, name := norm n, type := p.2.1 } := by
  obtain ⟨as, ty, it⟩ := p
  have := (h.2.1 u).mp hu
  cases it with
  | star t => simp only [ColumnOf] at this; subst this; exact absurd rfl huse.2
  | expr e =>
    rcases this with ⟨q, n, hm, rfl⟩ | ⟨-, rfl⟩
    · exact ⟨e, q, n, rfl, hm, rfl⟩
    · exact absurd rfl huse.1

/-- a mention in a place is a use in a described scope -/
theorem mention_use {s : Select} {sc : Scope} (hd : Describes norm s sc) {as : Str} {ty : FieldType} {e : Expr}
    {q n : Str} (hp : (as, ty, .expr e) ∈ places norm s) (hm : Mentions e q n) :
    ∃ fl ∈ sc.fields, ({ table := norm q, name := norm n, type := ty } : FieldColumn) ∈ fl.columns := by
  obtain ⟨all, hall, rfl⟩ := hd
  obtain ⟨fl, hfl, hof⟩ := place_field hall hp
  have hc := (hof.2.1 _).mpr (.inl ⟨q, n, hm, rfl⟩)
  refine ⟨fl, ?_, hc⟩
  simp only [Scope.fields, List.mem_filter, hfl, true_and, decide_eq_true_eq]
  intro h0
  rw [h0] at hc
  cases hc

theorem tables_eq {s : Select} {sc : Scope} (hd : Describes norm s sc) : sc.tables = tablesOf norm s := by
  obtain ⟨_, _, rfl⟩ := hd
  rfl

theorem subs_named {s : Select} {sc : Scope} (hd : Describes norm s sc) : SubsNamed sc := by
  obtain ⟨_, _, rfl⟩ := hd
  intro x hx y hy
  rw [inside_flat hx] at hy
  simp [Scope.subScopes] at hy

mutual

/-- the entries of FROM are its tables and derived tables -/
theorem refTables_items {T : Table} : ∀ (x : Ref), T ∈ refTables norm x →
    T.name = [] ∨ ∃ schema name as, T.name = norm name ∧
      (x = .source (.table schema name) as ∨
       ∃ j, (x = .join j ∨ ∃ as', x = .source (.join j) as') ∧ FromItem j (.source (.table schema name) as))
  | .nil, h => by simp [refTables] at h
  | .source (.table schema name) as, h => by
    simp only [refTables, List.mem_singleton] at h
    subst h
    exact .inr ⟨schema, name, as, rfl, .inl rfl⟩
  | .source (.select _) as, h => by
    simp only [refTables, List.mem_singleton] at h
    subst h
    exact .inl rfl
  | .source (.setOpr _) _, h => by simp [refTables] at h
  | .source (.join j) as', h => by
    simp only [refTables] at h
    rcases joinTables_items j h with h | ⟨schema, name, as, h1, h2⟩
    · exact .inl h
    · exact .inr ⟨schema, name, as, h1, .inr ⟨j, .inr ⟨as', rfl⟩, h2⟩⟩
  | .source .other _, h => by simp [refTables] at h
  | .join j, h => by
    simp only [refTables] at h
    rcases joinTables_items j h with h | ⟨schema, name, as, h1, h2⟩
    · exact .inl h
    · exact .inr ⟨schema, name, as, h1, .inr ⟨j, .inl rfl, h2⟩⟩
  | .other, h => by simp [refTables] at h

/-- see `refTables_items` -/
theorem joinTables_items {T : Table} : ∀ (j : Join), T ∈ joinTables norm j →
    T.name = [] ∨ ∃ schema name as, T.name = norm name ∧ FromItem j (.source (.table schema name) as)
  | .mk l r on us, h => by
    simp only [joinTables, List.mem_append] at h
    rcases h with h | h
    · rcases refTables_items l h with h | ⟨schema, name, as, h1, h2 | ⟨j, h2, h3⟩⟩
      · exact .inl h
      · exact .inr ⟨schema, name, as, h1, fromItem_kids.mpr (.inl (.inl h2.symm))⟩
      · exact .inr ⟨schema, name, as, h1, fromItem_kids.mpr (.inr ⟨j, l, .inl rfl, h2, h3⟩)⟩
    · rcases refTables_items r h with h | ⟨schema, name, as, h1, h2 | ⟨j, h2, h3⟩⟩
      · exact .inl h
      · exact .inr ⟨schema, name, as, h1, fromItem_kids.mpr (.inl (.inr h2.symm))⟩
      · exact .inr ⟨schema, name, as, h1, fromItem_kids.mpr (.inr ⟨j, r, .inr rfl, h2, h3⟩)⟩

end

/-! ## C72 -/

/-- **C72.** Whatever the statement is and whatever the catalogue answers, the analysis returns suggestions
or errors; it never crashes, and a failure that is the query's fault has at least one message. -/
theorem C72_returns (o : Orders) (norm : Str → Str) (cols : List Str → Except ε (List T))
    (f : T → Name × Name × Bool) (stmt : Stmt) :
    ∃ r, listPossibleIndexes o norm cols f stmt = some r ∧ ∀ es, r = .error (.query es) → es ≠ [] := by
  obtain ⟨r1, h1, h1e⟩ := C70_total norm o.names stmt
  simp only [listPossibleIndexes, h1]
  cases r1 with
  | error es =>
    refine ⟨_, rfl, ?_⟩
    rintro _ ⟨⟩
    exact h1e es rfl
  | ok names =>
    cases h3 : Schemas.collectTableSchemas (cols names) f names with
    | error e =>
      rcases (Schemas.C20_collect_error f names (cols names) e).mp h3 with
        ⟨_, _, rfl⟩ | ⟨_, _, _, _, _, _, _, _, rfl⟩ <;> simp only [h3] <;> exact ⟨_, rfl, nofun⟩
    | ok schemas =>
      simp only [h3]
      cases h2 : collectStmtScopes norm stmt with
      | error es =>
        refine ⟨_, rfl, ?_⟩
        rintro _ ⟨⟩
        exact scopes_errors h2
      | ok scopes =>
        have hsub : ∀ sc ∈ scopes, SubsNamed sc := by
          cases stmt with
          | setOpr => cases h2
          | other => cases h2
          | select s =>
            obtain ⟨⟨sc, rfl, hd⟩, -⟩ := C71_scope_describes norm s scopes h2
            intro x hx
            rw [List.mem_singleton] at hx
            subst hx
            exact subs_named hd
        have hnp := C66_suggest_no_crash o.set o.key o.entry o.sort schemas scopes hsub
        cases h4 : suggest o.set o.key o.entry o.sort schemas scopes with
        | error e =>
          cases e with
          | fields e =>
            cases e with
            | panic => exact absurd h4 hnp
            | _ => (refine ⟨_, by simp only [h4]; rfl, ?_⟩; nofun)
          | _ => (refine ⟨_, by simp only [h4]; rfl, ?_⟩; nofun)
        | ok its => (refine ⟨_, by simp only [h4]; rfl, ?_⟩; nofun)

/-- **C72.** Suggestions are made for SELECT statements only.  Every suggested index is on a table in the
FROM clause of the outermost SELECT; its columns are columns of that table in the catalogue, all
different, and each is mentioned by a clause of that SELECT itself. -/
theorem C72_suggestions_sound (o : Orders) (ho : o.Ok) (norm : Str → Str)
    (cols : List Str → Except ε (List T)) (f : T → Name × Name × Bool) (stmt : Stmt)
    (out : List IndexTarget) (h : listPossibleIndexes o norm cols f stmt = some (.ok out)) :
    ∃ s names rows, stmt = .select s ∧ cols names = .ok rows ∧
      (∀ name, ReadsTable norm s name → norm name ∈ names) ∧
      ((∀ v ∈ rows, (f v).1 ≠ []) → ∀ t ∈ out,
        (∃ j schema name as, fromOf s = some j ∧ FromItem j (.source (.table schema name) as) ∧
          t.tableName = norm name) ∧
        t.columns ≠ [] ∧ (t.columns.map (·.name)).Nodup ∧
        ∀ c ∈ t.columns, HasColumn f rows t.tableName c.name ∧
          ∃ as ty e q n, (as, ty, .expr e) ∈ places norm s ∧ Mentions e q n ∧ c.name = norm n) := by
  obtain ⟨s, names, rows, schemas, scopes, rfl, h1, h2, h3, h4, h5⟩ := list_ok h
  refine ⟨s, names, rows, rfl, h2, (C70_names_complete norm o.names ho.names s names h1).2, ?_⟩
  obtain ⟨⟨sc, rfl, hd⟩, -⟩ := C71_scope_describes norm s scopes h4
  intro hrow t ht
  obtain ⟨sch, hs1, hs2, hs3, hs4, hs5⟩ := C17_only_real_columns _ _ _ _ ho.choices _ _ _ h5 t ht
  obtain ⟨m1, m2, -⟩ := (PgScope.schemas_mem h3).2 sch hs1
  obtain ⟨sc', hsc', ⟨x, hx, T, hT, hTn⟩, huse⟩ := C66_suggested_is_mentioned _ _ _ _ ho.choices _ _ _ h5 t ht
  rw [List.mem_singleton] at hsc'
  subst hsc'
  have hreal : ∀ c ∈ t.columns, HasColumn f rows t.tableName c.name :=
    fun c hc => hs2 ▸ (m2 _).mp (hs5 c hc)
  refine ⟨?_, hs3, hs4, fun c hc => ⟨hreal c hc, ?_⟩⟩
  · have hne : t.tableName ≠ [] := by
      obtain ⟨c, hc⟩ := List.exists_mem_of_ne_nil _ hs3
      obtain ⟨v, hv, e, -⟩ := hreal c hc
      rw [← e]
      exact hrow v hv
    obtain ⟨all, hall, rfl⟩ := hd
    rw [inside_flat hx] at hT
    simp only [Scope.tables, tablesOf] at hT
    cases s with
    | mk v w fields from_ where_ groupBy having lists windows orderBy limit =>
      obtain ⟨j, hj, hT⟩ := List.mem_flatMap.mp hT
      rcases joinTables_items j hT with e | ⟨schema, name, as, e, hf⟩
      · exact absurd (hTn ▸ e) hne
      · exact ⟨j, schema, name, as, by simpa [fromOf] using hj, hf, hTn ▸ e⟩
  · obtain ⟨ty, x, hx, fl, hfl, u, hu, hiu, e, -⟩ := huse c hc
    obtain ⟨all, hall, rfl⟩ := hd
    rw [inside_flat hx] at hfl
    simp only [Scope.fields, List.mem_filter] at hfl
    obtain ⟨p, hp, hpf⟩ := field_place hall hfl.1
    obtain ⟨ex, q, n, he, hm, rfl⟩ := use_mention hpf hu hiu
    exact ⟨p.1, p.2.1, ex, q, n, by rw [← he]; exact hp, hm, e.symm⟩

/-- **C72.** No column that the outermost SELECT uses in WHERE or ON is forgotten: take any of them, of one
table; any order, no repetition.  An index on exactly these is among the suggestions, unless they all
belong to the primary key.  (Missing: conditions of nested queries; see `C72_nested_condition_forgotten`.) -/
theorem C72_conditions_suggested_partial (o : Orders) (ho : o.Ok) (norm : Str → Str)
    (cols : List Str → Except ε (List T)) (f : T → Name × Name × Bool) (s : Select)
    (out : List IndexTarget) (h : listPossibleIndexes o norm cols f (.select s) = some (.ok out)) :
    ∃ names rows, cols names = .ok rows ∧ (∀ name, ReadsTable norm s name → norm name ∈ names) ∧
      ∀ name cs, ReadsTable norm s name → cs ≠ [] → cs.Nodup →
        (∀ n ∈ cs, UsesColumn norm (HasColumn f rows) s (norm name) n .condition) →
        (∃ n ∈ cs, ¬InPrimaryKey f rows (norm name) n) → newIndexTarget (norm name) cs ∈ out := by
  obtain ⟨_, names, rows, schemas, scopes, -, h1, h2, h3, h4, h5⟩ := list_ok h
  have hnames := (C70_names_complete norm o.names ho.names _ names h1).2
  refine ⟨names, rows, h2, hnames, ?_⟩
  obtain ⟨⟨sc, rfl, hd⟩, -⟩ := C71_scope_describes norm s scopes h4
  intro name cs hr hne hnd hu hk
  obtain ⟨hs1, hs2⟩ := PgScope.schemas_mem h3
  obtain ⟨sch, hsch⟩ := hs1 _ (hnames name hr)
  obtain ⟨hm, hsn⟩ := schemaMap_mem hsch
  have hreal : ∀ n, HasColumn f rows (norm name) n → Real (schemaMap schemas) (norm name) n :=
    fun n hn => ⟨sch, hsch, ((hs2 sch hm).2.1 n).mpr (hsn ▸ hn)⟩
  have hhas : ∀ t n, Real (schemaMap schemas) t n → HasColumn f rows t n := by
    rintro t n ⟨sch, h6, h7⟩
    obtain ⟨h8, rfl⟩ := schemaMap_mem h6
    exact ((hs2 sch h8).2.1 n).mp h7
  have hplain : OnlyPlainUses sc := by
    obtain ⟨all, hall, rfl⟩ := hd
    intro x hx fl hfl u hu' huse
    rw [inside_flat hx] at hfl
    simp only [Scope.fields, List.mem_filter] at hfl
    obtain ⟨p, hp, hpf⟩ := field_place hall hfl.1
    obtain ⟨ex, q, n, he, hm, rfl⟩ := use_mention hpf hu' huse
    exact places_type s p hp
  have huses : ∀ n ∈ cs, Fields.Uses (schemaMap schemas) sc (norm name) n .condition := by
    intro n hn
    obtain ⟨as, e, q, m, hp, hm, rfl, hT, hc, hq⟩ := hu n hn
    obtain ⟨fl, hfl, hcol⟩ := mention_use hd hp hm
    refine ⟨sc, .here, fl, hfl, _, hcol, by simp [IsUse], rfl, .inl ?_⟩
    have hnone : sc.subScopes = [] ∧ sc.fieldScopes = [] := by
      obtain ⟨_, _, rfl⟩ := hd
      exact ⟨rfl, rfl⟩
    refine Means.own (c := { table := norm q, name := norm m, type := .condition }) ⟨?_, hreal _ hc, ?_, ?_⟩
    · rw [tables_eq hd]; exact hT
    · simp [hnone.1, hnone.2]
    · rcases hq with ⟨a1, a2, a3⟩ | ⟨a1, a2⟩
      · refine .inl ⟨a1, ⟨?_, ?_⟩, by simp [hnone.2]⟩
        · rw [tables_eq hd]; exact a2
        · rw [tables_eq hd]; exact a3
      · refine .inr ⟨a1, ?_, by simp [hnone.1, hnone.2]⟩
        rw [tables_eq hd]
        exact fun T hT hr => a2 T hT (hhas _ _ hr)
  obtain ⟨n0, hn0, hk0⟩ := hk
  exact C67_conditions_suggested _ _ _ _ ho.choices schemas [sc] out h5 sc (by simp) hplain _ sch hsch cs
    hne hnd huses ⟨n0, hn0, fun hm' => hk0 (hsn ▸ ((hs2 sch hm).2.2 n0).mp hm')⟩

/-- **C72.** A column that the outermost SELECT mentions is never dropped silently: on success, when the
FROM items have different names, some FROM item that it may be qualified by has, in the catalogue, a
column spelled like the lower-case form of what is written. -/
theorem C72_mentions_resolve (o : Orders) (ho : o.Ok) (norm : Str → Str)
    (cols : List Str → Except ε (List T)) (f : T → Name × Name × Bool) (s : Select)
    (hn : (aliases (tablesOf norm s)).Nodup) (out : List IndexTarget)
    (h : listPossibleIndexes o norm cols f (.select s) = some (.ok out)) :
    ∃ names rows, cols names = .ok rows ∧
      ∀ as ty e q n, (as, ty, .expr e) ∈ places norm s → Mentions e q n →
        ∃ T ∈ tablesOf norm s, (norm q = [] ∨ refName T = norm q) ∧ HasColumn f rows T.name (norm n) := by
  obtain ⟨_, names, rows, schemas, scopes, -, h1, h2, h3, h4, h5⟩ := list_ok h
  refine ⟨names, rows, h2, ?_⟩
  obtain ⟨⟨sc, rfl, hd⟩, -⟩ := C71_scope_describes norm s scopes h4
  intro as ty e q n hp hm
  by_contra hno
  obtain ⟨fl, hfl, hcol⟩ := mention_use hd hp hm
  obtain ⟨m, hb⟩ := suggest_ok_scopes h5 0 sc rfl
  obtain ⟨all, hall, rfl⟩ := hd
  have huse : IsUse ({ table := norm q, name := norm n, type := ty } : FieldColumn) := by
    have : ty = .reference ∨ ty = .condition := places_type s _ hp
    rcases this with rfl | rfl <;> simp [IsUse]
  obtain ⟨e, he⟩ := C18_flat_error (db := schemaMap schemas) o.key ho.choices.key [0] "<root>".toList _
    (tablesOf norm s) hn fl hfl _ hcol huse (by
      rintro t ⟨T, hT, rfl, hq, sch, h6, h7⟩
      obtain ⟨h8, h9⟩ := schemaMap_mem h6
      refine hno ⟨T, hT, hq, ?_⟩
      rw [← h9]
      exact (((PgScope.schemas_mem h3).2 sch h8).2.1 _).mp h7)
  cases he.symm.trans hb

end Verif.MyScope
