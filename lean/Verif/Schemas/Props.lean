import Verif.Common
import Verif.Schemas.Model
/-!
# C20: table schemas are grouped faithfully
-/
namespace Verif.Schemas
open Verif.Builder Verif.Lib

/-! ## Specification -/

/-- The rows of table `t`. -/
def rowsOf {T : Type} (f : T → Name × Name × Bool) (vals : List T) (t : Name) : List T :=
  vals.filter (fun v => (f v).1 = t)

/-- What the catalogue says about table `t`. -/
def describes {T : Type} (f : T → Name × Name × Bool) (vals : List T) (t : Name)
    (s : TableSchema) : Prop :=
  s.name = t ∧ s.columns = (rowsOf f vals t).map (fun v => (f v).2.1) ∧
    s.primaryKeys = ((rowsOf f vals t).filter (fun v => (f v).2.2)).map (fun v => (f v).2.1)

/-! ## Lemmas -/

section
variable {T : Type} (f : T → Name × Name × Bool)

/-- The schema after adding rows one by one. -/
def addRows (s : TableSchema) (vals : List T) : TableSchema :=
  vals.foldl (fun s v => addColumn s (f v).2.1 (f v).2.2) s

theorem addRows_eq (s : TableSchema) (vals : List T) : addRows f s vals =
    ⟨s.name, s.columns ++ vals.map (fun v => (f v).2.1),
      s.primaryKeys ++ (vals.filter (fun v => (f v).2.2)).map (fun v => (f v).2.1)⟩ := by
  induction vals generalizing s with
  | nil => simp [addRows]
  | cons v vs ih =>
    have : addRows f s (v :: vs) = addRows f (addColumn s (f v).2.1 (f v).2.2) vs := rfl
    rw [this, ih]
    by_cases h : (f v).2.2 = true <;> simp [addColumn, h]

theorem mapGet_addRow (t c : Name) (b : Bool) (m : List (Name × TableSchema)) (k : Name) :
    mapGet k (addRow t c b m) =
      if k = t then some (addColumn ((mapGet t m).getD ⟨t, [], []⟩) c b) else mapGet k m := by
  induction m with
  | nil => by_cases h : k = t <;> simp [addRow, mapGet, h]
  | cons p r ih =>
    obtain ⟨k0, s⟩ := p
    by_cases h0 : t = k0
    · subst h0
      by_cases h : k = t <;> simp [addRow, mapGet, h]
    · by_cases h : k = k0
      · have : k ≠ t := fun e => h0 (e ▸ h)
        simp [addRow, mapGet, h0, h, this]
        intro e; exact absurd e.symm h0
      · simp only [addRow, h0, if_false, mapGet, h, ih]

theorem mapGet_fold (vals : List T) (m : List (Name × TableSchema)) (k : Name) :
    mapGet k (vals.foldl (fun m v => addRow (f v).1 (f v).2.1 (f v).2.2 m) m) =
      if rowsOf f vals k = [] then mapGet k m
      else some (addRows f ((mapGet k m).getD ⟨k, [], []⟩) (rowsOf f vals k)) := by
  induction vals generalizing m with
  | nil => simp [rowsOf]
  | cons v vs ih =>
    rw [List.foldl_cons, ih, mapGet_addRow]
    by_cases h : (f v).1 = k
    · subst h
      have e : rowsOf f (v :: vs) (f v).1 = v :: rowsOf f vs (f v).1 := by simp [rowsOf]
      rw [e]
      by_cases hr : rowsOf f vs (f v).1 = []
      · simp [hr, addRows]
      · simp [hr, addRows]
    · have e : rowsOf f (v :: vs) k = rowsOf f vs k := by simp [rowsOf, h]
      have h' : k ≠ (f v).1 := fun e => h e.symm
      rw [e]; simp [h']

theorem mapGet_collectRows (vals : List T) (k : Name) :
    mapGet k (collectRows f vals) =
      if rowsOf f vals k = [] then none else some (addRows f ⟨k, [], []⟩ (rowsOf f vals k)) := by
  rw [collectRows, mapGet_fold]; simp [mapGet]

end

/-! ## Properties -/

/-- C20: the result is aligned with the requested names; position by position it is the schema the
catalogue rows describe, and `nil` exactly for a table without rows. -/
theorem C20_exact {T : Type} (f : T → Name × Name × Bool) (tables : List Name) (vals : List T) :
    (createTableSchemas tables vals f).length = tables.length ∧
    ∀ (i : Nat) (t : Name), tables[i]? = some t →
      (rowsOf f vals t = [] ∧ (createTableSchemas tables vals f)[i]? = some none) ∨
      (rowsOf f vals t ≠ [] ∧ ∃ s, (createTableSchemas tables vals f)[i]? = some (some s) ∧
        describes f vals t s) := by
  refine ⟨by simp [createTableSchemas], ?_⟩
  intro i t h
  have e : (createTableSchemas tables vals f)[i]? = some (mapGet t (collectRows f vals)) := by
    simp [createTableSchemas, h]
  rw [e, mapGet_collectRows]
  by_cases hr : rowsOf f vals t = []
  · left; simp [hr]
  · right
    refine ⟨hr, addRows f ⟨t, [], []⟩ (rowsOf f vals t), by simp [hr], ?_⟩
    rw [addRows_eq]
    exact ⟨rfl, by simp, by simp⟩

/-- Alignment of the checked result. -/
theorem checkAll_ok {ε : Type} (g : Name → Option TableSchema) (tables : List Name)
    (r : List TableSchema) :
    checkAll (ε := ε) tables (tables.map g) = .ok r ↔ tables.map g = r.map some := by
  induction tables generalizing r with
  | nil => cases r <;> simp [checkAll]
  | cons t ts ih =>
    rw [List.map_cons]
    cases hg : g t with
    | none => cases r <;> simp [checkAll]
    | some s =>
      rw [checkAll]
      cases hc : checkAll (ε := ε) ts (ts.map g) with
      | error e =>
        cases r with
        | nil => simp
        | cons a r' =>
          have := ih r'
          rw [hc] at this
          simp only [reduceCtorEq, false_iff] at this ⊢
          intro h; simp at h; exact this h.2
      | ok r0 =>
        have h0 := (ih r0).mp hc
        cases r with
        | nil => simp
        | cons a r' =>
          simp only [Except.ok.injEq, List.cons.injEq, List.map_cons, Option.some.injEq]
          constructor
          · rintro ⟨rfl, rfl⟩; exact ⟨rfl, h0⟩
          · rintro ⟨rfl, h⟩
            refine ⟨rfl, ?_⟩
            have : (r0.map some) = r'.map some := h0.symm.trans h
            exact (List.map_inj_right (fun _ _ h => Option.some.inj h)).mp this

theorem checkAll_error {ε : Type} (g : Name → Option TableSchema) (tables : List Name)
    (e : Err ε) :
    checkAll tables (tables.map g) = .error e ↔
      ∃ pre t post, tables = pre ++ t :: post ∧ g t = none ∧ (∀ x ∈ pre, g x ≠ none) ∧
        e = .unknownTable t := by
  induction tables with
  | nil => simp [checkAll]
  | cons t ts ih =>
    rw [List.map_cons]
    cases hg : g t with
    | none =>
      simp only [checkAll, Except.error.injEq]
      constructor
      · rintro rfl; exact ⟨[], t, ts, rfl, hg, by simp, rfl⟩
      · rintro ⟨pre, t', post, h, h1, h2, rfl⟩
        cases pre with
        | nil => simp at h; rw [h.1]
        | cons a pre =>
          simp only [List.cons_append, List.cons.injEq] at h
          exact absurd (h.1 ▸ hg) (h2 a (by simp))
    | some s =>
      rw [checkAll]
      have key : checkAll (ε := ε) ts (ts.map g) = .error e ↔
          ∃ pre t' post, t :: ts = pre ++ t' :: post ∧ g t' = none ∧ (∀ x ∈ pre, g x ≠ none) ∧
            e = .unknownTable t' := by
        rw [ih]
        constructor
        · rintro ⟨pre, t', post, rfl, h1, h2, rfl⟩
          refine ⟨t :: pre, t', post, rfl, h1, ?_, rfl⟩
          intro x hx
          rcases List.mem_cons.mp hx with rfl | hx
          · simp [hg]
          · exact h2 x hx
        · rintro ⟨pre, t', post, h, h1, h2, rfl⟩
          cases pre with
          | nil => simp at h; rw [← h.1, hg] at h1; cases h1
          | cons a pre =>
            simp only [List.cons_append, List.cons.injEq] at h
            exact ⟨pre, t', post, h.2, h1, fun x hx => h2 x (by simp [hx]), rfl⟩
      cases hc : checkAll (ε := ε) ts (ts.map g) with
      | error e' => rw [hc] at key; simpa using key
      | ok r => rw [hc] at key; simpa using key

/-- C20: `CollectTableSchemas` succeeds exactly when every requested table has a row, and then
returns, position by position, the schema its rows describe. -/
theorem C20_collect_ok {T ε : Type} (f : T → Name × Name × Bool) (tables : List Name)
    (vals : List T) (r : List TableSchema) :
    collectTableSchemas (ε := ε) (.ok vals) f tables = .ok r ↔
      r.length = tables.length ∧
      ∀ (i : Nat) (t : Name) (s : TableSchema), tables[i]? = some t → r[i]? = some s →
        (∃ v ∈ vals, (f v).1 = t) ∧ describes f vals t s := by
  have nonempty : ∀ t, rowsOf f vals t ≠ [] ↔ ∃ v ∈ vals, (f v).1 = t := by
    intro t; simp [rowsOf, List.filter_eq_nil_iff]
  have hg : ∀ t s, mapGet t (collectRows f vals) = some s ↔
      ((∃ v ∈ vals, (f v).1 = t) ∧ describes f vals t s) := by
    intro t s
    rw [mapGet_collectRows, ← nonempty]
    by_cases hr : rowsOf f vals t = []
    · simp [hr]
    · simp only [hr, if_false, Option.some.injEq, ne_eq, not_false_eq_true, true_and, addRows_eq,
        describes, List.nil_append]
      constructor
      · rintro rfl; exact ⟨rfl, rfl, rfl⟩
      · obtain ⟨a, b, c⟩ := s
        rintro ⟨h1, h2, h3⟩
        simp only at h1 h2 h3
        rw [h1, h2, h3]
  rw [collectTableSchemas, createTableSchemas, checkAll_ok]
  constructor
  · intro h
    have hl : r.length = tables.length := by
      have := congrArg List.length h; simpa using this.symm
    refine ⟨hl, ?_⟩
    intro i t s ht hs
    have := congrArg (fun l => l[i]?) h
    simp only [List.getElem?_map, ht, hs, Option.map_some, Option.some.injEq] at this
    exact (hg t s).mp this
  · rintro ⟨hl, h⟩
    apply List.ext_getElem?
    intro i
    by_cases hi : i < tables.length
    · have ht : tables[i]? = some tables[i] := List.getElem?_eq_getElem hi
      have hs : r[i]? = some (r[i]'(by omega)) := List.getElem?_eq_getElem _
      simp only [List.getElem?_map, ht, hs, Option.map_some, Option.some.injEq]
      exact (hg _ _).mpr (h i _ _ ht hs)
    · have h1 : tables[i]? = none := List.getElem?_eq_none (by omega)
      have h2 : r[i]? = none := List.getElem?_eq_none (by omega)
      simp [h1, h2]

/-- C20: it fails exactly when the catalogue query fails, with that failure, or when a requested
table has no row, and then names the first such table. -/
theorem C20_collect_error {T ε : Type} (f : T → Name × Name × Bool) (tables : List Name)
    (cols : Except ε (List T)) (e : Err ε) :
    collectTableSchemas cols f tables = .error e ↔
      (∃ e', cols = .error e' ∧ e = .db e') ∨
      (∃ vals pre t post, cols = .ok vals ∧ tables = pre ++ t :: post ∧ (∀ v ∈ vals, (f v).1 ≠ t) ∧
        (∀ x ∈ pre, ∃ v ∈ vals, (f v).1 = x) ∧ e = .unknownTable t) := by
  cases cols with
  | error e' => simp [collectTableSchemas]; exact eq_comm
  | ok vals =>
    have hn : ∀ t, mapGet t (collectRows f vals) = none ↔ ∀ v ∈ vals, (f v).1 ≠ t := by
      intro t
      rw [mapGet_collectRows]
      by_cases hr : rowsOf f vals t = []
      · simp only [hr, if_true, true_iff]
        simpa [rowsOf, List.filter_eq_nil_iff] using hr
      · simp only [hr, if_false, reduceCtorEq, false_iff]
        intro h; exact hr (by simpa [rowsOf, List.filter_eq_nil_iff] using h)
    rw [collectTableSchemas, createTableSchemas, checkAll_error]
    simp only [reduceCtorEq, false_and, exists_false, false_or, Except.ok.injEq]
    constructor
    · rintro ⟨pre, t, post, h1, h2, h3, rfl⟩
      refine ⟨vals, pre, t, post, rfl, h1, (hn t).mp h2, ?_, rfl⟩
      intro x hx
      have := h3 x hx
      rw [ne_eq, hn] at this
      simpa using this
    · rintro ⟨_, pre, t, post, rfl, h1, h2, h3, rfl⟩
      refine ⟨pre, t, post, h1, (hn t).mpr h2, ?_, rfl⟩
      intro x hx h
      obtain ⟨v, hv, he⟩ := h3 x hx
      exact (hn x).mp h v hv he

/-! ## Examples -/

/-- two tables, their rows interleaved, and a composite primary key -/
def exRows : List MysqlColumn :=
  [⟨['t'], ['a'], "PRI".toList⟩, ⟨['u'], ['x'], []⟩, ⟨['t'], ['b'], []⟩, ⟨['t'], ['c'], "PRI".toList⟩]

example : collectTableSchemas (ε := Unit) (.ok exRows) mysqlRow [['u'], ['t']] =
    .ok [⟨['u'], [['x']], []⟩, ⟨['t'], [['a'], ['b'], ['c']], [['a'], ['c']]⟩] := by
  decide +kernel
example : collectTableSchemas (ε := Unit) (.ok exRows) mysqlRow [['t'], ['v'], ['w']] =
    .error (.unknownTable ['v']) := by decide +kernel

end Verif.Schemas
