import Verif.Fields.Spec
import Verif.Builder.Spec
/-! # Invariants of column resolution -/
namespace Verif.Fields
open Verif.Index Verif.Lib Verif.Builder Verif.Builder.Spec Spec

/-! ### Maps -/

theorem mapGet_mapSet {α : Type} (k k' : Name) (v : α) (m : List (Name × α)) :
    mapGet k' (mapSet k v m) = if k' = k then some v else mapGet k' m := by
  induction m with
  | nil => simp [mapSet, mapGet]
  | cons p r ih =>
    obtain ⟨k0, v0⟩ := p
    by_cases h0 : k = k0
    · subst h0
      by_cases h : k' = k <;> simp [mapSet, mapGet, h]
    · by_cases h : k' = k
      · subst h; simp [mapSet, mapGet, h0, ih]
      · simp [mapSet, mapGet, h0, ih, h]

theorem mem_mapSet {α : Type} (k : Name) (v : α) (m : List (Name × α)) (p : Name × α)
    (h : p ∈ mapSet k v m) : p = (k, v) ∨ p ∈ m := by
  induction m with
  | nil => simpa [mapSet] using h
  | cons q r ih =>
    obtain ⟨k0, v0⟩ := q
    simp only [mapSet] at h
    split at h
    · rcases List.mem_cons.mp h with h | h
      · exact .inl h
      · exact .inr (by simp [h])
    · rcases List.mem_cons.mp h with h | h
      · exact .inr (by simp [h])
      · rcases ih h with h | h
        · exact .inl h
        · exact .inr (by simp [h])

theorem mem_keys_mapSet {α : Type} (k k' : Name) (v : α) (m : List (Name × α)) :
    k' ∈ keys (mapSet k v m) ↔ k' = k ∨ k' ∈ keys m := by
  induction m with
  | nil => simp [mapSet, keys]
  | cons q r ih =>
    obtain ⟨k0, v0⟩ := q
    simp only [keys] at ih ⊢
    simp only [mapSet]
    split
    · next h => subst h; simp
    · simp only [List.map_cons, List.mem_cons, ih]
      constructor <;> rintro (h | h | h) <;> simp [h]

theorem keys_mapSet_nodup {α : Type} (k : Name) (v : α) (m : List (Name × α)) (h : (keys m).Nodup) :
    (keys (mapSet k v m)).Nodup := by
  induction m with
  | nil => simp [mapSet, keys]
  | cons q r ih =>
    obtain ⟨k0, v0⟩ := q
    simp only [keys, List.map_cons, List.nodup_cons] at h
    simp only [mapSet]
    split
    · next hk => subst hk; simpa [keys] using h
    · next hk =>
      have := ih h.2
      simp only [keys, List.map_cons, List.nodup_cons] at this ⊢
      refine ⟨?_, this⟩
      intro hm
      rcases (mem_keys_mapSet k k0 v r).mp hm with e | e
      · exact hk e.symm
      · exact h.1 e

theorem mapGet_mem {α : Type} (k : Name) (v : α) (m : List (Name × α)) (h : mapGet k m = some v) :
    (k, v) ∈ m := by
  induction m with
  | nil => simp [mapGet] at h
  | cons p r ih =>
    obtain ⟨k0, v0⟩ := p
    simp only [mapGet] at h
    split at h
    · next e => cases h; subst e; simp
    · exact List.mem_cons_of_mem _ (ih h)

theorem mapGet_key {α : Type} (k : Name) (v : α) (m : List (Name × α)) (h : mapGet k m = some v) :
    k ∈ keys m := List.mem_map.mpr ⟨(k, v), mapGet_mem k v m h, rfl⟩

theorem mem_mapGet {α : Type} (k : Name) (v : α) (m : List (Name × α)) (hn : (keys m).Nodup)
    (h : (k, v) ∈ m) : mapGet k m = some v := by
  induction m with
  | nil => simp at h
  | cons p r ih =>
    obtain ⟨k0, v0⟩ := p
    simp only [keys, List.map_cons, List.nodup_cons] at hn
    simp only [mapGet]
    rcases List.mem_cons.mp h with e | h'
    · cases e; simp
    · split
      · next e => subst e; exact (hn.1 (List.mem_map.mpr ⟨(_, v), h', rfl⟩)).elim
      · exact ih hn.2 h'

/-! ### Invariants -/

variable (db : Name → Option TableSchema) (N : Name → Prop)

/-- Output columns refer to real columns and have allowed names. -/
def ColsOK (cols : List OutputCol) : Prop :=
  ∀ o ∈ cols, N o.name ∧ ∀ ci ∈ o.refs, Real db ci.tableName ci.name

/-- The reference map lists each real column of a table at most once. -/
def FieldsOK (m : FieldMap) : Prop :=
  (keys m).Nodup ∧ ∀ p ∈ m, DistinctNames p.2 ∧ p.2 ≠ [] ∧
    ∀ c ∈ p.2, c.table = p.1 ∧ Real db p.1 c.name ∧ c.type ≠ .star ∧ c.type ≠ .subquery

/-- External columns. -/
structure ExtOK (outer : List Name) (ext : OutMap) : Prop where
  cols : ∀ p ∈ ext, ColsOK db N p.2
  keys : ∀ k ∈ keys ext, k ∈ outer ∧ N k

/-- Scope state. -/
structure InfoOK (allowed : List Name) (i : Info) : Prop where
  cols : ∀ p ∈ i.internalCols, ColsOK db N p.2
  as : ∀ k ∈ keys i.asToName, k ∈ allowed ∧ N k
  subq : ∀ k ∈ i.subqueryAsNames, N k
  fields : FieldsOK db i.refFields

variable {db N}

theorem ColsOK.append {a b : List OutputCol} (ha : ColsOK db N a) (hb : ColsOK db N b) :
    ColsOK db N (a ++ b) := by
  intro o ho
  rcases List.mem_append.mp ho with h | h
  · exact ha o h
  · exact hb o h

theorem ColsOK.sub {a b : List OutputCol} (hb : ColsOK db N b) (h : ∀ o ∈ a, o ∈ b) :
    ColsOK db N a := fun o ho => hb o (h o ho)

theorem addToList_names (col : FieldColumn) (l : List FieldColumn) :
    (addToList col l).map (·.name) =
      if col.name ∈ l.map (·.name) then l.map (·.name) else l.map (·.name) ++ [col.name] := by
  induction l with
  | nil => simp [addToList]
  | cons c cs ih =>
    simp only [addToList]
    by_cases h : c.name = col.name
    · simp only [h, if_true, List.map_cons]
      have : (if c.type = .reference ∧ col.type = .condition then col else c).name = col.name := by
        split
        · rfl
        · exact h
      simp [this]
    · have h' : ¬col.name = c.name := fun e => h e.symm
      simp only [h, if_false, List.map_cons, ih, List.mem_cons, h', false_or]
      split <;> simp

theorem mem_addToList (col : FieldColumn) (l : List FieldColumn) (c : FieldColumn)
    (h : c ∈ addToList col l) : c = col ∨ c ∈ l := by
  induction l with
  | nil => simpa [addToList] using h
  | cons d ds ih =>
    simp only [addToList] at h
    split at h
    · rcases List.mem_cons.mp h with h | h
      · split at h
        · exact .inl h
        · exact .inr (by simp [h])
      · exact .inr (by simp [h])
    · rcases List.mem_cons.mp h with h | h
      · exact .inr (by simp [h])
      · rcases ih h with h | h
        · exact .inl h
        · exact .inr (by simp [h])

theorem addToList_distinct (col : FieldColumn) (l : List FieldColumn) (h : DistinctNames l) :
    DistinctNames (addToList col l) := by
  unfold DistinctNames at *
  rw [addToList_names]
  split
  · exact h
  · next hn =>
    rw [List.nodup_append]
    refine ⟨h, by simp, ?_⟩
    intro a ha b hb e
    simp only [List.mem_singleton] at hb
    subst hb; subst e; exact hn ha

theorem addToList_ne_nil (col : FieldColumn) (l : List FieldColumn) : addToList col l ≠ [] := by
  cases l with
  | nil => simp [addToList]
  | cons c cs => simp only [addToList]; split <;> simp

theorem addReferencingField_ok {m : FieldMap} (hm : FieldsOK db m) (t : Name) (col : FieldColumn)
    (hc : col.table = t ∧ Real db t col.name ∧ col.type ≠ .star ∧ col.type ≠ .subquery) :
    FieldsOK db (addReferencingField t col m) := by
  refine ⟨keys_mapSet_nodup _ _ _ hm.1, ?_⟩
  intro p hp
  rcases mem_mapSet _ _ _ _ hp with rfl | hp
  · cases hg : mapGet t m with
    | none =>
      simp only [Option.getD_none]
      exact ⟨by simp [addToList, DistinctNames], by simp [addToList], by simpa [addToList] using hc⟩
    | some l =>
      have := hm.2 _ (mapGet_mem _ _ _ hg)
      simp only [Option.getD_some]
      refine ⟨addToList_distinct _ _ this.1, addToList_ne_nil _ _, ?_⟩
      intro c hcm
      rcases mem_addToList _ _ _ hcm with rfl | hcm
      · exact hc
      · exact this.2.2 c hcm
  · exact hm.2 p hp

theorem addReferencingFields_ok {m new : FieldMap} (hm : FieldsOK db m) (hn : FieldsOK db new)
    (ks : List Name) : FieldsOK db (addReferencingFields ks new m) := by
  unfold addReferencingFields
  induction ks generalizing m with
  | nil => exact hm
  | cons k ks ih =>
    simp only [List.foldl_cons]
    apply ih
    cases hg : mapGet k new with
    | none => simpa using hm
    | some l =>
      simp only [Option.getD_some]
      have hl := (hn.2 _ (mapGet_mem _ _ _ hg)).2.2
      clear hg
      induction l generalizing m with
      | nil => exact hm
      | cons c cs ihc =>
        simp only [List.foldl_cons]
        exact ihc (addReferencingField_ok hm k c (hl c (by simp))) (fun c hc => hl c (by simp [hc]))

theorem addInfos_ok {m : FieldMap} (hm : FieldsOK db m) (ty : FieldType) (cis : List ColInfo)
    (hr : ∀ ci ∈ cis, Real db ci.tableName ci.name) (ht : cis ≠ [] → ty ≠ .star ∧ ty ≠ .subquery) :
    FieldsOK db (addInfos ty cis m) := by
  unfold addInfos
  induction cis generalizing m with
  | nil => exact hm
  | cons ci cis ih =>
    simp only [List.foldl_cons]
    refine ih (addReferencingField_ok hm _ _ ⟨rfl, hr ci (by simp), ht (by simp)⟩)
      (fun c hc => hr c (by simp [hc])) (fun _ => ht (by simp))

theorem buildReferencingColumns_ok (tables : List Table) (hN : ∀ n ∈ tableCols db tables, N n) :
    ∀ p ∈ buildReferencingColumns db tables, ColsOK db N p.2 := by
  unfold buildReferencingColumns
  suffices H : ∀ (m : OutMap), (∀ p ∈ m, ColsOK db N p.2) →
      ∀ p ∈ tables.foldl (fun res t =>
        match db t.name with
        | some sch => sch.columns.foldl (fun res c => appendCol t.name c res) res
        | none => res) m, ColsOK db N p.2 from H [] (by simp)
  induction tables with
  | nil => intro m hm; exact hm
  | cons t ts ih =>
    intro m hm
    simp only [List.foldl_cons]
    refine ih (fun n hn => hN n (by
      simp only [tableCols, List.flatMap_cons, List.mem_append] at hn ⊢; exact .inr hn)) _ ?_
    cases hdb : db t.name with
    | none => exact hm
    | some sch =>
      simp only
      have hsub : ∀ (cs : List Name), (∀ c ∈ cs, c ∈ sch.columns) → ∀ (m : OutMap),
          (∀ p ∈ m, ColsOK db N p.2) →
          ∀ p ∈ cs.foldl (fun res c => appendCol t.name c res) m, ColsOK db N p.2 := by
        intro cs
        induction cs with
        | nil => intro _ m hm; exact hm
        | cons c cs ihc =>
          intro hcs m hm
          simp only [List.foldl_cons]
          apply ihc (fun x hx => hcs x (by simp [hx]))
          intro p hp
          rcases mem_mapSet _ _ _ _ hp with rfl | hp
          · apply ColsOK.append
            · cases hg : mapGet t.name m with
              | none => intro o ho; simp at ho
              | some l => simpa using hm _ (mapGet_mem _ _ _ hg)
            · intro o ho
              simp only [List.mem_singleton] at ho
              subst ho
              refine ⟨hN c ?_, ?_⟩
              · simp only [tableCols, List.flatMap_cons, List.mem_append, hdb, Option.map_some,
                  Option.getD_some]
                exact .inl (hcs c (by simp))
              · intro ci hci
                simp only [List.mem_singleton] at hci
                subst hci
                exact ⟨sch, hdb, hcs c (by simp)⟩
          · exact hm p hp
      exact hsub sch.columns (fun _ h => h) m hm

theorem newInfo_ok {outer : List Name} {ext : OutMap} (tables : List Table)
    (hN : ∀ n ∈ tableCols db tables, N n) (hA : ∀ n ∈ aliases tables, N n)
    (he : ExtOK db N outer ext) : InfoOK db N (outer ++ aliases tables) (newInfo db tables ext) := by
  refine ⟨buildReferencingColumns_ok tables hN, ?_, ?_, ⟨by simp [newInfo, keys], by simp [newInfo]⟩⟩
  · have h1 : ∀ (ks : List Name) (m : List (Name × Name)) (A : Name → Prop), (∀ k ∈ keys m, A k) →
        (∀ k ∈ ks, A k) → ∀ k ∈ keys (ks.foldl (fun m k => mapSet k k m) m), A k := by
      intro ks
      induction ks with
      | nil => intro m A hm _; exact hm
      | cons x xs ih =>
        intro m A hm hx
        simp only [List.foldl_cons]
        apply ih _ A _ (fun k hk => hx k (by simp [hk]))
        intro k hk
        rcases (mem_keys_mapSet _ _ _ _).mp hk with rfl | hk
        · exact hx k (by simp)
        · exact hm k hk
    have h2 : ∀ (ts : List Table) (m : List (Name × Name)) (A : Name → Prop), (∀ k ∈ keys m, A k) →
        (∀ t ∈ ts, A (refName t)) →
        ∀ k ∈ keys (ts.foldl (fun m t => mapSet (refName t) t.name m) m), A k := by
      intro ts
      induction ts with
      | nil => intro m A hm _; exact hm
      | cons x xs ih =>
        intro m A hm hx
        simp only [List.foldl_cons]
        apply ih _ A _ (fun k hk => hx k (by simp [hk]))
        intro k hk
        rcases (mem_keys_mapSet _ _ _ _).mp hk with rfl | hk
        · exact hx x (by simp)
        · exact hm k hk
    intro k hk
    simp only [newInfo, asOrName_eq] at hk
    refine h2 tables _ (fun k => k ∈ outer ++ aliases tables ∧ N k) ?_ ?_ k hk
    · refine h1 _ _ (fun k => k ∈ outer ++ aliases tables ∧ N k) (by simp [keys]) ?_
      intro k hk
      exact ⟨List.mem_append_left _ (he.keys k hk).1, (he.keys k hk).2⟩
    · intro t ht
      have : refName t ∈ aliases tables := List.mem_map.mpr ⟨t, ht, rfl⟩
      exact ⟨List.mem_append_right _ this, hA _ this⟩
  · intro k hk; exact (he.keys k hk).2

theorem getVisibleColumns_ok {A : List Name} {i : Info} (hi : InfoOK db N A i) :
    ExtOK db N A (getVisibleColumns i) := by
  have hmem : ∀ p ∈ getVisibleColumns i, p.1 ∈ keys i.asToName ∧
      ∃ n, mapGet n i.internalCols = some p.2 := by
    intro p hp
    simp only [getVisibleColumns, List.mem_filterMap] at hp
    obtain ⟨q, hq, hp⟩ := hp
    cases hg : mapGet q.2 i.internalCols with
    | none => simp [hg] at hp
    | some cols =>
      simp only [hg, Option.map_some, Option.some.injEq] at hp
      subst hp
      exact ⟨List.mem_map.mpr ⟨q, hq, rfl⟩, q.2, hg⟩
  constructor
  · intro p hp
    obtain ⟨_, n, hn⟩ := hmem p hp
    exact hi.cols (n, p.2) (mapGet_mem _ _ _ hn)
  · intro k hk
    obtain ⟨p, hp, rfl⟩ := List.mem_map.mp hk
    exact hi.as _ (hmem p hp).1

theorem assign_ok {A B : List Name} {a b : OutMap} (ha : ExtOK db N A a) (hb : ExtOK db N B b)
    (hAB : ∀ k ∈ A, k ∈ B) : ExtOK db N B (assign a b) := by
  have ha' : ExtOK db N B a := ⟨ha.cols, fun k hk => ⟨hAB _ (ha.keys k hk).1, (ha.keys k hk).2⟩⟩
  clear ha hAB
  unfold assign
  have : ∀ (b : OutMap) (a : OutMap), ExtOK db N B a → ExtOK db N B b →
      ExtOK db N B (b.foldl (fun m p => mapSet p.1 p.2 m) a) := by
    intro b
    induction b with
    | nil => intro a ha _; exact ha
    | cons p ps ih =>
      intro a ha hb
      simp only [List.foldl_cons]
      apply ih
      · constructor
        · intro q hq
          rcases mem_mapSet _ _ _ _ hq with rfl | hq
          · exact hb.cols p (by simp)
          · exact ha.cols q hq
        · intro k hk
          rcases (mem_keys_mapSet _ _ _ _).mp hk with rfl | hk
          · exact hb.keys _ (by simp [keys])
          · exact ha.keys k hk
      · exact ⟨fun q hq => hb.cols q (by simp [hq]), fun k hk => hb.keys k (by
          simp only [keys, List.map_cons, List.mem_cons] at hk ⊢; exact .inr hk)⟩
  exact this b a ha' hb

theorem addSubqueryInfo_ok {A : List Name} {i : Info} (hi : InfoOK db N A i) (ks : List Name)
    (name asName : Name) (cols : List OutputCol) (new : FieldMap) (hc : ColsOK db N cols)
    (hn : FieldsOK db new) (ha : asName ∈ A ∧ N asName) :
    InfoOK db N A (addSubqueryInfo ks name asName cols new i) := by
  refine ⟨?_, ?_, ?_, addReferencingFields_ok hi.fields hn ks⟩
  · intro p hp
    rcases mem_mapSet _ _ _ _ hp with rfl | hp
    · exact hc
    · exact hi.cols p hp
  · intro k hk
    rcases (mem_keys_mapSet _ _ _ _).mp hk with rfl | hk
    · exact ha
    · exact hi.as k hk
  · intro k hk
    rcases List.mem_cons.mp hk with rfl | hk
    · exact ha.2
    · exact hi.subq k hk

theorem ColsOK.mono {N' : Name → Prop} {a : List OutputCol} (ha : ColsOK db N a)
    (h : ∀ n, N n → N' n) : ColsOK db N' a := fun o ho => ⟨h _ (ha o ho).1, (ha o ho).2⟩

theorem ExtOK.mono {N' : Name → Prop} {A B : List Name} {m : OutMap} (he : ExtOK db N A m)
    (h : ∀ k ∈ A, k ∈ B) (hN : ∀ n, N n → N' n) : ExtOK db N' B m :=
  ⟨fun p hp => (he.cols p hp).mono hN, fun k hk => ⟨h _ (he.keys k hk).1, hN _ (he.keys k hk).2⟩⟩

theorem InfoOK.mono {N' : Name → Prop} {A B : List Name} {i : Info} (hi : InfoOK db N A i)
    (h : ∀ k ∈ A, k ∈ B) (hN : ∀ n, N n → N' n) : InfoOK db N' B i :=
  ⟨fun p hp => (hi.cols p hp).mono hN, fun k hk => ⟨h _ (hi.as k hk).1, hN _ (hi.as k hk).2⟩,
    fun k hk => hN _ (hi.subq k hk), hi.fields⟩

/-! ### One scope's own columns -/

theorem getTableColsFromAsName_ok {A : List Name} {i : Info} {outer : List Name} {ext : OutMap}
    (hi : InfoOK db N A i) (he : ExtOK db N outer ext) {t : Name} {cols : List OutputCol}
    (h : getTableColsFromAsName i ext t = .ok cols) : t ∈ A ∧ ColsOK db N cols := by
  simp only [getTableColsFromAsName] at h
  split at h
  · next name hn =>
    refine ⟨(hi.as t (mapGet_key _ _ _ hn)).1, ?_⟩
    simp only [getTableColsFromName] at h
    split at h
    · next c hc => cases h; exact hi.cols _ (mapGet_mem _ _ _ hc)
    · split at h
      · next c hc => cases h; exact he.cols _ (mapGet_mem _ _ _ hc)
      · cases h
  · cases h

theorem getColumnInfosFrom_ok {ks : List Name} {m : OutMap} (hm : ∀ p ∈ m, ColsOK db N p.2)
    {c : Name} {cis : List ColInfo} (h : getColumnInfosFrom ks m c = some cis) :
    N c ∧ ∀ ci ∈ cis, Real db ci.tableName ci.name := by
  simp only [getColumnInfosFrom] at h
  obtain ⟨k, _, hk⟩ := List.exists_of_findSome?_eq_some h
  obtain ⟨o, ho, rfl⟩ := Option.map_eq_some_iff.mp hk
  have hmem := List.mem_of_find?_eq_some ho
  have hname := List.find?_some ho
  cases hg : mapGet k m with
  | none => simp [hg] at hmem
  | some l =>
    simp only [hg, Option.getD_some] at hmem
    have := hm _ (mapGet_mem _ _ _ hg) o hmem
    simp only [decide_eq_true_eq] at hname
    exact ⟨hname ▸ this.1, this.2⟩

theorem getColumnReference_ok {ord : KeyOrder} {path : List Nat} {A : List Name} {i : Info}
    {outer : List Name} {ext : OutMap} (hi : InfoOK db N A i) (he : ExtOK db N outer ext)
    {c : FieldColumn} {cis : List ColInfo}
    (h : getColumnReferenceColumnInfos ord path i ext c = .ok cis) :
    (∀ ci ∈ cis, Real db ci.tableName ci.name) ∧ (IsUse c → N c.name) ∧
      (IsUse c → c.table ≠ [] → c.table ∈ A) ∧ (cis ≠ [] → c.type ≠ .star ∧ c.type ≠ .subquery) := by
  simp only [getColumnReferenceColumnInfos] at h
  split at h
  · next ht => cases h; exact ⟨by simp, fun hu => absurd ht hu.1, fun hu => absurd ht hu.1, by simp⟩
  · next ht1 =>
    split at h
    · next ht => cases h; exact ⟨by simp, fun hu => absurd ht hu.2, fun hu => absurd ht hu.2, by simp⟩
    · next ht2 =>
      split at h
      · next htab =>
        simp only [getColumnInfos] at h
        split at h
        · next cols hc =>
          cases h
          have := getColumnInfosFrom_ok hi.cols hc
          exact ⟨this.2, fun _ => this.1, fun _ hne => absurd htab hne, fun _ => ⟨ht2, ht1⟩⟩
        · split at h
          · next cols hc =>
            cases h
            have := getColumnInfosFrom_ok he.cols hc
            exact ⟨this.2, fun _ => this.1, fun _ hne => absurd htab hne, fun _ => ⟨ht2, ht1⟩⟩
          · split at h
            · next hs =>
              cases h
              exact ⟨by simp, fun _ => hi.subq _ hs, fun _ hne => absurd htab hne, by simp⟩
            · cases h
      · next htab =>
        simp only [getReferencingColumnInfos] at h
        split at h
        · cases h
        · next cols hc =>
          obtain ⟨hA, hcols⟩ := getTableColsFromAsName_ok hi he hc
          split at h
          · next o ho =>
            cases h
            have hmem := List.mem_of_find?_eq_some ho
            have hname := List.find?_some ho
            simp only [decide_eq_true_eq] at hname
            have := hcols o hmem
            exact ⟨this.2, fun _ => hname ▸ this.1, fun _ _ => hA, fun _ => ⟨ht2, ht1⟩⟩
          · cases h

theorem columnLoop_ok {ord : KeyOrder} {A : List Name} {i : Info} {outer : List Name} {ext : OutMap}
    (hi : InfoOK db N A i) (he : ExtOK db N outer ext) (path : List Nat) (k : Nat)
    (cs : List FieldColumn) (m : FieldMap) (stars : List Name) (hm : FieldsOK db m)
    {infos : List ColInfo} {m' : FieldMap} {stars' : List Name}
    (h : columnLoop ord i ext path k cs m stars = .ok (infos, m', stars')) :
    (∀ ci ∈ infos, Real db ci.tableName ci.name) ∧ FieldsOK db m' ∧
      (∀ s, s ∈ stars' ↔ s ∈ stars ∨ ∃ c ∈ cs, c.type = .star ∧ c.table = s) ∧
      (∀ c ∈ cs, IsUse c → N c.name) ∧ (∀ c ∈ cs, IsUse c → c.table ≠ [] → c.table ∈ A) := by
  induction cs generalizing k m stars infos m' stars' with
  | nil =>
    simp only [columnLoop, Except.ok.injEq, Prod.mk.injEq] at h
    obtain ⟨rfl, rfl, rfl⟩ := h
    exact ⟨by simp, hm, by simp, by simp, by simp⟩
  | cons c cs ih =>
    simp only [columnLoop] at h
    split at h
    · cases h
    · next cis hcis =>
      obtain ⟨h1, h2, h3, h4⟩ := getColumnReference_ok hi he hcis
      split at h
      · cases h
      · next rest m1 s1 hrest =>
        cases h
        obtain ⟨g1, g2, g3, g4, g5⟩ := ih (k + 1) _ _ (addInfos_ok hm c.type cis h1 h4) hrest
        refine ⟨?_, g2, ?_, ?_, ?_⟩
        · intro ci hci
          rcases List.mem_append.mp hci with h | h
          · exact h1 ci h
          · exact g1 ci h
        · intro s
          rw [g3]
          by_cases hst : c.type = .star
          · simp only [hst, if_true, List.mem_cons]
            constructor
            · rintro ((rfl | h) | ⟨d, hd, h⟩)
              · exact .inr ⟨c, .inl rfl, hst, rfl⟩
              · exact .inl h
              · exact .inr ⟨d, .inr hd, h⟩
            · rintro (h | ⟨d, rfl | hd, h⟩)
              · exact .inl (.inr h)
              · exact .inl (.inl h.2.symm)
              · exact .inr ⟨d, hd, h⟩
          · simp only [hst, if_false, List.mem_cons]
            constructor
            · rintro (h | ⟨d, hd, h⟩)
              · exact .inl h
              · exact .inr ⟨d, .inr hd, h⟩
            · rintro (h | ⟨d, rfl | hd, h⟩)
              · exact .inl h
              · exact absurd h.1 hst
              · exact .inr ⟨d, hd, h⟩
        · intro d hd
          rcases List.mem_cons.mp hd with rfl | hd
          · exact h2
          · exact g4 d hd
        · intro d hd
          rcases List.mem_cons.mp hd with rfl | hd
          · exact h3
          · exact g5 d hd

theorem fieldLoop_ok {ord : KeyOrder} {A : List Name} {i : Info} {outer : List Name} {ext : OutMap}
    (hi : InfoOK db N A i) (he : ExtOK db N outer ext) (path : List Nat) (k : Nat)
    (fs : List Field) (m : FieldMap) (stars : List Name)
    (hm : FieldsOK db m) {outs : List OutputCol} {m' : FieldMap} {stars' : List Name}
    (h : fieldLoop ord i ext path k fs m stars = .ok (outs, m', stars')) :
    ColsOK db (· ∈ fs.map label) outs ∧ FieldsOK db m' ∧
      (∀ s, s ∈ stars' ↔ s ∈ stars ∨ ∃ f ∈ fs, ∃ c ∈ f.columns, c.type = .star ∧ c.table = s) ∧
      (∀ f ∈ fs, ∀ c ∈ f.columns, IsUse c → N c.name) ∧
      (∀ f ∈ fs, ∀ c ∈ f.columns, IsUse c → c.table ≠ [] → c.table ∈ A) := by
  induction fs generalizing k m stars outs m' stars' with
  | nil =>
    simp only [fieldLoop, Except.ok.injEq, Prod.mk.injEq] at h
    obtain ⟨rfl, rfl, rfl⟩ := h
    exact ⟨by intro o ho; simp at ho, hm, by simp, by simp, by simp⟩
  | cons f fs ih =>
    simp only [fieldLoop] at h
    split at h
    · cases h
    · next infos m1 s1 hcol =>
      obtain ⟨h1, h2, h3, h4, h5⟩ := columnLoop_ok hi he _ _ _ _ _ hm hcol
      split at h
      · cases h
      · next outs1 m2 s2 hrest =>
        simp only [Except.ok.injEq, Prod.mk.injEq] at h
        obtain ⟨rfl, rfl, rfl⟩ := h
        obtain ⟨g1, g2, g3, g4, g5⟩ := ih (k + 1) _ _ h2 hrest
        refine ⟨?_, g2, ?_, ?_, ?_⟩
        · apply ColsOK.append _ (g1.mono fun n hn => List.mem_cons_of_mem _ hn)
          intro o ho
          rw [outName_eq] at ho
          split at ho
          · simp only [List.mem_singleton] at ho
            subst ho
            exact ⟨by simp, h1⟩
          · simp at ho
        · intro s
          rw [g3, h3]
          simp only [List.mem_cons]
          constructor
          · rintro ((h | ⟨c, hc, h⟩) | ⟨d, hd, h⟩)
            · exact .inl h
            · exact .inr ⟨f, .inl rfl, c, hc, h⟩
            · exact .inr ⟨d, .inr hd, h⟩
          · rintro (h | ⟨d, rfl | hd, h⟩)
            · exact .inl (.inl h)
            · exact .inl (.inr h)
            · exact .inr ⟨d, hd, h⟩
        · intro d hd
          rcases List.mem_cons.mp hd with rfl | hd
          · exact h4
          · exact g4 d hd
        · intro d hd
          rcases List.mem_cons.mp hd with rfl | hd
          · exact h5
          · exact g5 d hd

theorem starLoop_ok {ord : KeyOrder} {A : List Name} {i : Info} {outer : List Name} {ext : OutMap}
    (hi : InfoOK db N A i) (he : ExtOK db N outer ext) (path : List Nat) (k : Nat)
    (ts : List Name) {res : List OutputCol} (h : starLoop ord i ext path k ts = .ok res) :
    ColsOK db N res ∧ ∀ t ∈ ts, t ≠ [] → t ∈ A := by
  induction ts generalizing k res with
  | nil =>
    simp only [starLoop, Except.ok.injEq] at h
    subst h
    exact ⟨by intro o ho; simp at ho, by simp⟩
  | cons t ts ih =>
    simp only [starLoop] at h
    split at h
    · next ht =>
      split at h
      · cases h
      · next rest hrest =>
        cases h
        obtain ⟨g1, g2⟩ := ih (k + 1) hrest
        refine ⟨ColsOK.append ?_ g1, ?_⟩
        · intro o ho
          obtain ⟨n, _, hn⟩ := List.mem_flatMap.mp ho
          cases hg : mapGet n i.internalCols with
          | none => simp [hg] at hn
          | some l =>
            simp only [hg, Option.getD_some] at hn
            exact hi.cols _ (mapGet_mem _ _ _ hg) o hn
        · intro t' ht' hne
          rcases List.mem_cons.mp ht' with rfl | ht'
          · exact absurd ht hne
          · exact g2 t' ht' hne
    · split at h
      · cases h
      · next cols hcols =>
        split at h
        · cases h
        · next rest hrest =>
          cases h
          obtain ⟨g1, g2⟩ := ih (k + 1) hrest
          obtain ⟨hA, hc⟩ := getTableColsFromAsName_ok hi he hcols
          refine ⟨ColsOK.append hc g1, ?_⟩
          intro t' ht' hne
          rcases List.mem_cons.mp ht' with rfl | ht'
          · exact hA
          · exact g2 t' ht' hne

theorem listStar_ok {ord : KeyOrder} (hord : ∀ p l, (ord p l).Perm l) {A : List Name} {i : Info}
    {outer : List Name} {ext : OutMap} (hi : InfoOK db N A i) (he : ExtOK db N outer ext)
    (path : List Nat) (stars : List Name) (found : List OutputCol) {res : List OutputCol}
    (h : listStar ord path i ext stars found = .ok res) :
    ColsOK db N res ∧ (stars = [] → res = []) ∧ ∀ t ∈ stars, t ≠ [] → t ∈ A := by
  simp only [listStar] at h
  split at h
  · cases h
  · next r hr =>
    cases h
    obtain ⟨g1, g2⟩ := starLoop_ok hi he _ _ _ hr
    refine ⟨g1.sub ?_, ?_, ?_⟩
    · intro o ho
      have := (uniqBy_sublist (fun o : OutputCol => o.name) _).mem ho
      exact (List.mem_filter.mp this).1
    · intro hs
      subst hs
      have : ord (path ++ [0]) (uniq []) = [] := List.perm_nil.mp (hord _ _)
      rw [this] at hr
      simp only [starLoop, Except.ok.injEq] at hr
      subst hr
      rfl
    · intro t ht
      exact g2 t ((hord _ _).mem_iff.mpr ((mem_uniq _ _).mpr ht))

/-! ### The recursion -/

mutual

theorem providesSub_mono (db : Name → Option TableSchema) (outer : List Name) (tables : List Table) :
    (ss : List Scope) → ∀ acc n, n ∈ acc → n ∈ providesSub db outer tables acc ss
  | [], _, _, h => by simpa [providesSub] using h
  | _ :: ss, _, _, h => by
    simp only [providesSub]
    exact providesSub_mono db outer tables ss _ _ (List.mem_append_left _ h)

theorem providesAll_mono (db : Name → Option TableSchema) (vis : List Name) :
    (ss : List Scope) → ∀ acc n, n ∈ acc → n ∈ providesAll db vis acc ss
  | [], _, _, h => by simpa [providesAll] using h
  | _ :: ss, _, _, h => by
    simp only [providesAll]
    exact providesAll_mono db vis ss _ _ (List.mem_append_left _ h)

end

mutual

theorem calcRefs_ok {ord : KeyOrder} (hord : ∀ p l, (ord p l).Perm l) :
    (s : Scope) → ∀ ⦃path : List Nat⦄ ⦃outer on : List Name⦄ ⦃ext : OutMap⦄
    ⦃outs : List OutputCol⦄ ⦃m : FieldMap⦄, ExtOK db (· ∈ on) outer ext →
    calcRefs ord db path ext s = .ok (outs, m) →
    ColsOK db (· ∈ provides db on s) outs ∧ FieldsOK db m ∧ TablesDefined outer s ∧
      ColumnsDefined db on s
  | .mk name fields fieldScopes tables subScopes => by
    intro path outer on ext outs m he h
    simp only [calcRefs] at h
    have hi0 : InfoOK db (· ∈ fromNames db on tables) (outer ++ aliases tables)
        (newInfo db tables ext) := newInfo_ok tables
      (fun n hn => by simp only [fromNames, List.mem_append]; exact .inr hn)
      (fun n hn => by simp only [fromNames, List.mem_append]; exact .inl (.inr hn))
      (he.mono (fun _ h => h) (fun n hn => by
        simp only [fromNames, List.mem_append]; exact .inl (.inl hn)))
    split at h
    · cases h
    · next i1 hi1 =>
      obtain ⟨g1, g2, g3⟩ := calcSubs_ok hord subScopes (acc := fromNames db on tables) he
        (fun n hn => by simp only [fromNames, List.mem_append]; exact .inl (.inl hn))
        (fun t ht => by
          have : refName t ∈ aliases tables := List.mem_map.mpr ⟨t, ht, rfl⟩
          exact ⟨this, by simp only [fromNames, List.mem_append]; exact .inl (.inr this)⟩) hi0 hi1
      have hvis : providesSub db on tables (fromNames db on tables) subScopes =
        visibleNames db on (.mk name fields fieldScopes tables subScopes) := rfl
      rw [hvis] at g1
      split at h
      · cases h
      · next i2 hi2 =>
        obtain ⟨k1, k2, k3⟩ := calcFieldScopes_ok hord fieldScopes
          (A := outer ++ aliases tables ++ fieldScopes.map (·.name)) (V := outer ++ aliases tables)
          (vis := visibleNames db on (.mk name fields fieldScopes tables subScopes))
          (acc := visibleNames db on (.mk name fields fieldScopes tables subScopes) ++
            fieldScopes.map (·.name))
          (fun s hs => by
            have : s.name ∈ fieldScopes.map (·.name) := List.mem_map.mpr ⟨s, hs, rfl⟩
            exact ⟨List.mem_append_right _ this, List.mem_append_right _ this⟩)
          (getVisibleColumns_ok g1) (g1.mono (fun k hk => List.mem_append_left _ hk)
            (fun n hn => List.mem_append_left _ hn)) hi2
        have hown : providesAll db (visibleNames db on (.mk name fields fieldScopes tables subScopes))
          (visibleNames db on (.mk name fields fieldScopes tables subScopes) ++
            fieldScopes.map (·.name)) fieldScopes =
          ownNames db on (.mk name fields fieldScopes tables subScopes) := rfl
        rw [hown] at k1
        have he' : ExtOK db (· ∈ ownNames db on (.mk name fields fieldScopes tables subScopes))
            outer ext := he.mono (fun _ h => h) (fun n hn => by
          apply providesAll_mono
          apply List.mem_append_left
          apply providesSub_mono
          simp only [fromNames, List.mem_append]; exact .inl (.inl hn))
        split at h
        · cases h
        · next outs1 m1 stars hf =>
          obtain ⟨f1, f2, f3, f4, f5⟩ := fieldLoop_ok k1 he' _ _ fields _ _ k1.fields hf
          split at h
          · cases h
          · next fs hstar =>
            cases h
            obtain ⟨s1, s0, s2⟩ := listStar_ok hord k1 he' _ _ _ hstar
            refine ⟨ColsOK.append (f1.mono fun n hn => ?_) ?_, f2, ?_, ?_⟩
            · simp only [provides]; exact List.mem_append_left _ hn
            · by_cases hs : HasStar fields
              · refine s1.mono fun n hn => ?_
                simp only [provides, hs, if_true]
                exact List.mem_append_right _ hn
              · have : stars = [] := by
                  cases hst : stars with
                  | nil => rfl
                  | cons x xs =>
                    exfalso
                    rcases (f3 x).mp (by simp [hst]) with h | ⟨f, hfm, c, hc, ht, _⟩
                    · simp at h
                    · exact hs ⟨f, hfm, c, hc, ht⟩
                rw [s0 this]
                intro o ho
                simp at ho
            · simp only [TablesDefined]
              refine ⟨?_, g2, k2⟩
              intro f hfm c hcm hsq hne
              by_cases hst : c.type = .star
              · exact s2 c.table ((f3 _).mpr (.inr ⟨f, hfm, c, hcm, hst, rfl⟩)) hne
              · exact f5 f hfm c hcm ⟨hsq, hst⟩ hne
            · simp only [ColumnsDefined]
              exact ⟨f4, g3, k3⟩

theorem calcSubs_ok {ord : KeyOrder} (hord : ∀ p l, (ord p l).Perm l) :
    (ss : List Scope) → ∀ ⦃path : List Nat⦄ ⦃k : Nat⦄ ⦃outer on acc : List Name⦄ ⦃ext : OutMap⦄
    ⦃tables : List Table⦄ ⦃i j : Info⦄, ExtOK db (· ∈ on) outer ext → (∀ n ∈ on, n ∈ acc) →
    (∀ t ∈ tables, refName t ∈ aliases tables ∧ refName t ∈ acc) →
    InfoOK db (· ∈ acc) (outer ++ aliases tables) i →
    calcSubs ord db path k ext tables ss i = .ok j →
    InfoOK db (· ∈ providesSub db on tables acc ss) (outer ++ aliases tables) j ∧
      TablesDefinedSub outer tables ss ∧ ColumnsDefinedSub db on tables acc ss
  | [] => by
    intro path k outer on acc ext tables i j _ _ _ hi h
    simp only [calcSubs, Except.ok.injEq] at h
    subst h
    exact ⟨by simpa only [providesSub] using hi, trivial, trivial⟩
  | s :: ss => by
    intro path k outer on acc ext tables i j he hon ht hi h
    simp only [calcSubs] at h
    split at h
    · cases h
    · next t hfind =>
      have hmem : t ∈ tables := List.mem_reverse.mp (List.mem_of_find?_eq_some hfind)
      have hname : t.name = s.name := by simpa using List.find?_some hfind
      split at h
      · cases h
      · next cols new hc =>
        have hsub : ColsOK db (· ∈ provides db (if Lateral tables s.name then acc else on) s) cols ∧
            FieldsOK db new ∧
            TablesDefined (if Lateral tables s.name then outer ++ aliases tables else outer) s ∧
            ColumnsDefined db (if Lateral tables s.name then acc else on) s := by
          refine calcRefs_ok hord s ?_ hc
          have hacc : ExtOK db (· ∈ acc) (outer ++ aliases tables) ext :=
            he.mono (fun k hk => List.mem_append_left _ hk) hon
          by_cases hl : t.isLateral = true
          · have hex : Lateral tables s.name := ⟨t, hmem, hname, hl⟩
            simp only [hl, if_true, hex]
            exact assign_ok hacc (getVisibleColumns_ok hi) (fun k hk => hk)
          · simp only [hl, Bool.false_eq_true, if_false]
            by_cases hex : Lateral tables s.name
            · simp only [hex, if_true]; exact hacc
            · simp only [hex, if_false]; exact he
        obtain ⟨a1, a2, a3, a4⟩ := hsub
        have hal := ht t hmem
        rw [asOrName_eq] at h
        obtain ⟨b1, b2, b3⟩ := calcSubs_ok hord ss
          (acc := acc ++ provides db (if Lateral tables s.name then acc else on) s) he
          (fun n hn => List.mem_append_left _ (hon n hn))
          (fun t ht' => ⟨(ht t ht').1, List.mem_append_left _ (ht t ht').2⟩)
          (addSubqueryInfo_ok (hi.mono (fun _ h => h) (fun n hn => List.mem_append_left _ hn)) _
            s.name (refName t) cols new (a1.mono fun n hn => List.mem_append_right _ hn) a2
            ⟨List.mem_append_right _ hal.1, List.mem_append_left _ hal.2⟩) h
        exact ⟨by simpa only [providesSub] using b1, ⟨a3, b2⟩, ⟨a4, b3⟩⟩

theorem calcFieldScopes_ok {ord : KeyOrder} (hord : ∀ p l, (ord p l).Perm l) :
    (ss : List Scope) → ∀ ⦃path : List Nat⦄ ⦃k : Nat⦄ ⦃A V vis acc : List Name⦄ ⦃visible : OutMap⦄
    ⦃i j : Info⦄, (∀ s ∈ ss, s.name ∈ A ∧ s.name ∈ acc) →
    ExtOK db (· ∈ vis) V visible → InfoOK db (· ∈ acc) A i →
    calcFieldScopes ord db path k visible ss i = .ok j →
    InfoOK db (· ∈ providesAll db vis acc ss) A j ∧ TablesDefinedAll V ss ∧
      ColumnsDefinedAll db vis ss
  | [] => by
    intro path k A V vis acc visible i j _ _ hi h
    simp only [calcFieldScopes, Except.ok.injEq] at h
    subst h
    exact ⟨by simpa only [providesAll] using hi, trivial, trivial⟩
  | s :: ss => by
    intro path k A V vis acc visible i j hs he hi h
    simp only [calcFieldScopes] at h
    split at h
    · cases h
    · next cols new hc =>
      obtain ⟨a1, a2, a3, a4⟩ := calcRefs_ok hord s he hc
      obtain ⟨b1, b2, b3⟩ := calcFieldScopes_ok hord ss (acc := acc ++ provides db vis s)
        (fun s hs' => ⟨(hs s (by simp [hs'])).1, List.mem_append_left _ (hs s (by simp [hs'])).2⟩) he
        (addSubqueryInfo_ok (hi.mono (fun _ h => h) (fun n hn => List.mem_append_left _ hn)) _
          s.name s.name cols new (a1.mono fun n hn => List.mem_append_right _ hn) a2
          ⟨(hs s (by simp)).1, List.mem_append_left _ (hs s (by simp)).2⟩) h
      exact ⟨by simpa only [providesAll] using b1, ⟨a3, b2⟩, ⟨a4, b3⟩⟩

end

end Verif.Fields
