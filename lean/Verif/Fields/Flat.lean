import Verif.Fields.Props
/-!
# Property C19 and exact attribution for queries without subqueries
-/
namespace Verif.Fields
open Verif.Index Verif.Lib Verif.Builder Verif.Builder.Spec Spec

/-! ## Specification -/

/-- Column use `c` may belong to the real table `t`: `t` is in FROM under the qualifier (if any) and
has such a column. -/
def Attributes (db : Name → Option TableSchema) (tables : List Table) (c : FieldColumn) (t : Name) :
    Prop :=
  ∃ T ∈ tables, T.name = t ∧ (c.table = [] ∨ refName T = c.table) ∧ Real db t c.name

/-- The type under which a column is finally listed, from the types of its uses in order. -/
def finalType : List FieldType → Option FieldType
  | [] => none
  | .reference :: rest => some (if .condition ∈ rest then .condition else .reference)
  | x :: _ => some x

/-- What a field map says of column `col` of table `t`. -/
def listedAs (m : FieldMap) (t col : Name) : Option FieldType :=
  (((mapGet t m).getD []).find? (fun c => c.name = col)).map (·.type)

/-- Types of the uses of column `col` of `t`. -/
def typesOf (uses : List FieldColumn) (t col : Name) : List FieldType :=
  (uses.filter fun c => decide (c.table = t ∧ c.name = col)).map (·.type)

/-! ## The recorder -/

/-- Repeated `addReferencingField` (`build_table_fields.go:195-211`). -/
def recordAll (uses : List FieldColumn) (m : FieldMap) : FieldMap :=
  uses.foldl (fun m c => addReferencingField c.table c m) m

/-- One step of `finalType` seen from the state. -/
def mergeType (old : Option FieldType) (new : FieldType) : Option FieldType :=
  match old with
  | none => some new
  | some o => some (if o = .reference ∧ new = .condition then new else o)

theorem find_addToList (col : FieldColumn) (l : List FieldColumn) (nm : Name) :
    ((addToList col l).find? (fun c => c.name = nm)).map (·.type) =
      if col.name = nm then mergeType ((l.find? (fun c => c.name = nm)).map (·.type)) col.type
      else (l.find? (fun c => c.name = nm)).map (·.type) := by
  induction l with
  | nil => by_cases h : col.name = nm <;> simp [addToList, h, mergeType]
  | cons c cs ih =>
    simp only [addToList]
    by_cases hc : c.name = col.name
    · simp only [hc, if_true]
      by_cases h : col.name = nm
      · subst h
        by_cases hu : c.type = .reference ∧ col.type = .condition
        · simp [hu, hc, mergeType]
        · simp [hu, hc, mergeType]
      · have h' : ¬c.name = nm := hc ▸ h
        simp only [h, if_false]
        by_cases hu : c.type = .reference ∧ col.type = .condition
        · simp [hu, h, h']
        · simp [hu, h']
    · simp only [hc, if_false]
      by_cases h2 : c.name = nm
      · have : ¬col.name = nm := fun e => hc (h2.trans e.symm)
        simp [h2, this]
      · simp only [List.find?_cons, h2, decide_false, ih]

theorem listedAs_add (m : FieldMap) (t : Name) (col : FieldColumn) (t' nm : Name) :
    listedAs (addReferencingField t col m) t' nm =
      if t = t' ∧ col.name = nm then mergeType (listedAs m t' nm) col.type else listedAs m t' nm := by
  simp only [listedAs, addReferencingField, mapGet_mapSet]
  by_cases h : t' = t
  · subst h
    simp only [if_true, Option.getD_some, find_addToList, true_and]
  · have : ¬(t = t' ∧ col.name = nm) := fun e => h e.1.symm
    simp only [h, if_false, this]

theorem listedAs_recordAll (uses : List FieldColumn) (m : FieldMap) (t nm : Name) :
    listedAs (recordAll uses m) t nm = (typesOf uses t nm).foldl mergeType (listedAs m t nm) := by
  induction uses generalizing m with
  | nil => rfl
  | cons c cs ih =>
    simp only [recordAll, List.foldl_cons] at ih ⊢
    rw [ih, listedAs_add]
    by_cases h : c.table = t ∧ c.name = nm
    · simp [typesOf, h]
    · simp [typesOf, h]

theorem foldl_mergeType (ts : List FieldType) : ts.foldl mergeType none = finalType ts := by
  have hcond : ∀ ts : List FieldType, ∀ o, o ≠ .reference → ts.foldl mergeType (some o) = some o := by
    intro ts
    induction ts with
    | nil => intro o _; rfl
    | cons t ts ih => intro o ho; simp [mergeType, ho, ih o ho]
  have href : ∀ ts : List FieldType, ts.foldl mergeType (some .reference) =
      some (if .condition ∈ ts then .condition else .reference) := by
    intro ts
    induction ts with
    | nil => rfl
    | cons t ts ih =>
      by_cases ht : t = .condition
      · subst ht; simp [mergeType, hcond ts .condition (by decide)]
      · simp [mergeType, ht, ih, Ne.symm ht]
  cases ts with
  | nil => rfl
  | cons t ts =>
    simp only [List.foldl_cons, mergeType]
    cases t with
    | reference => exact href ts
    | condition => exact hcond ts _ (by decide)
    | aggregation => exact hcond ts _ (by decide)
    | subquery => exact hcond ts _ (by decide)
    | star => exact hcond ts _ (by decide)

/-- **C19 (recorder, exact).** The type under which a column is listed is determined by its uses in
order: a first plain reference is upgraded by any later condition; any other first use stays. -/
theorem C19_type_exact (uses : List FieldColumn) (t col : Name) :
    listedAs (recordAll uses []) t col = finalType (typesOf uses t col) := by
  rw [listedAs_recordAll]
  exact foldl_mergeType _

/-- **C19 (partial: no aggregation).** A column used in some condition, and never aggregated, is
listed as a condition column whatever the order of its uses. -/
theorem C19_condition_wins_partial (uses : List FieldColumn) (t col : Name)
    (hc : ∃ c ∈ uses, c.table = t ∧ c.name = col ∧ c.type = .condition)
    (hn : ∀ c ∈ uses, c.table = t → c.name = col → c.type = .reference ∨ c.type = .condition) :
    listedAs (recordAll uses []) t col = some .condition := by
  rw [C19_type_exact]
  obtain ⟨c, hcm, h1, h2, h3⟩ := hc
  have hmem : FieldType.condition ∈ typesOf uses t col := by
    simp only [typesOf, List.mem_map, List.mem_filter, decide_eq_true_eq]
    exact ⟨c, ⟨hcm, h1, h2⟩, h3⟩
  have hty : ∀ x ∈ typesOf uses t col, x = .reference ∨ x = .condition := by
    intro x hx
    simp only [typesOf, List.mem_map, List.mem_filter, decide_eq_true_eq] at hx
    obtain ⟨d, ⟨hd, h1, h2⟩, rfl⟩ := hx
    exact hn d hd h1 h2
  revert hmem hty
  cases typesOf uses t col with
  | nil => simp
  | cons x xs =>
    intro hmem hty
    rcases hty x (by simp) with rfl | rfl
    · have : FieldType.condition ∈ xs := by simpa using hmem
      simp [finalType, this]
    · rfl

/-- **C19.** Every used column is listed. -/
theorem C19_all_listed (uses : List FieldColumn) (t col : Name) :
    (listedAs (recordAll uses []) t col).isSome = true ↔ ∃ c ∈ uses, c.table = t ∧ c.name = col := by
  rw [C19_type_exact]
  have : (finalType (typesOf uses t col)).isSome = true ↔ typesOf uses t col ≠ [] := by
    cases typesOf uses t col with
    | nil => simp [finalType]
    | cons x xs => cases x <;> simp [finalType]
  rw [this]
  simp only [typesOf, ne_eq, List.map_eq_nil_iff, List.filter_eq_nil_iff, decide_eq_true_eq, not_forall,
    not_not, exists_prop]

/-! ## Flat queries -/

section
variable (db : Name → Option TableSchema)

theorem mapGet_foldl_alias (ts : List Table) (m : List (Name × Name)) (hn : (aliases ts).Nodup)
    (a : Name) :
    mapGet a (ts.foldl (fun m t => mapSet (refName t) t.name m) m) =
      match ts.find? (refName · = a) with
      | some t => some t.name
      | none => mapGet a m := by
  induction ts generalizing m with
  | nil => rfl
  | cons t ts ih =>
    simp only [aliases, List.map_cons, List.nodup_cons] at hn
    simp only [List.foldl_cons, ih _ hn.2, mapGet_mapSet]
    by_cases h : refName t = a
    · have hnone : ts.find? (refName · = a) = none := by
        rw [List.find?_eq_none]
        intro x hx
        simp only [decide_eq_true_eq]
        intro e
        exact hn.1 (List.mem_map.mpr ⟨x, hx, by rw [e, h]⟩)
      simp [hnone, h]
    · have h' : ¬a = refName t := fun e => h e.symm
      simp [List.find?_cons, h, h']

/-- Column lists built from the schemas. -/
structure BrcOK (tables : List Table) (m : OutMap) : Prop where
  sound : ∀ t cols, mapGet t m = some cols → cols ≠ [] ∧ ∀ o ∈ cols, o.refs = [⟨t, o.name⟩] ∧
    Real db t o.name ∧ ∃ T ∈ tables, T.name = t
  complete : ∀ T ∈ tables, ∀ x, Real db T.name x → ∃ cols, mapGet T.name m = some cols ∧
    ∃ o ∈ cols, o.name = x
  nodup : (keys m).Nodup

theorem appendCol_get (t c : Name) (m : OutMap) (t' : Name) : mapGet t' (appendCol t c m) =
    if t' = t then some ((mapGet t m).getD [] ++ [⟨c, [⟨t, c⟩]⟩]) else mapGet t' m := by
  simp [appendCol, mapGet_mapSet]

theorem foldl_appendCol_get (t : Name) (cs : List Name) (m : OutMap) (t' : Name) :
    mapGet t' (cs.foldl (fun res c => appendCol t c res) m) =
      if t' = t ∧ cs ≠ [] then some ((mapGet t m).getD [] ++ cs.map (fun c => ⟨c, [⟨t, c⟩]⟩))
      else mapGet t' m := by
  induction cs generalizing m with
  | nil => simp
  | cons c cs ih =>
    simp only [List.foldl_cons, ih, appendCol_get]
    by_cases h : t' = t
    · subst h
      by_cases hc : cs = []
      · simp [hc]
      · simp [hc]
    · simp [h]

theorem foldl_appendCol_nodup (t : Name) (cs : List Name) (m : OutMap) (h : (keys m).Nodup) :
    (keys (cs.foldl (fun res c => appendCol t c res) m)).Nodup := by
  induction cs generalizing m with
  | nil => exact h
  | cons c cs ih =>
    simp only [List.foldl_cons]
    exact ih _ (keys_mapSet_nodup _ _ _ h)

theorem brc_ok (tables : List Table) : BrcOK db tables (buildReferencingColumns db tables) := by
  unfold buildReferencingColumns
  suffices H : ∀ (ts done : List Table) (m : OutMap), BrcOK db done m →
      BrcOK db (done ++ ts) (ts.foldl (fun res t =>
        match db t.name with
        | some sch => sch.columns.foldl (fun res c => appendCol t.name c res) res
        | none => res) m) by
    have := H tables [] [] ⟨by simp [mapGet], by simp, by simp [keys]⟩
    rw [List.nil_append] at this
    exact this
  intro ts
  induction ts with
  | nil => intro done m h; simpa using h
  | cons T ts ih =>
    intro done m h
    simp only [List.foldl_cons]
    have e : done ++ T :: ts = (done ++ [T]) ++ ts := by simp
    rw [e]
    apply ih
    cases hdb : db T.name with
    | none =>
      simp only
      refine ⟨?_, ?_, h.nodup⟩
      · intro t cols hg
        refine ⟨(h.sound t cols hg).1, fun o ho => ?_⟩
        obtain ⟨h1, h2, T', hT', h3⟩ := (h.sound t cols hg).2 o ho
        exact ⟨h1, h2, T', by simp [hT'], h3⟩
      · intro T' hT' x hx
        rcases List.mem_append.mp hT' with h' | h'
        · exact h.complete T' h' x hx
        · simp only [List.mem_singleton] at h'
          subst h'
          obtain ⟨sch, hs, _⟩ := hx
          rw [hdb] at hs
          cases hs
    | some sch =>
      simp only
      refine ⟨?_, ?_, foldl_appendCol_nodup _ _ _ h.nodup⟩
      · intro t cols hg
        rw [foldl_appendCol_get] at hg
        split at hg
        · next hc =>
          obtain ⟨rfl, hne⟩ := hc
          cases hg
          refine ⟨by simp [hne], fun o ho => ?_⟩
          rcases List.mem_append.mp ho with ho | ho
          · cases hg : mapGet T.name m with
            | none => simp [hg] at ho
            | some l =>
              simp only [hg, Option.getD_some] at ho
              obtain ⟨h1, h2, _⟩ := (h.sound _ l hg).2 o ho
              exact ⟨h1, h2, T, by simp, rfl⟩
          · obtain ⟨c, hc, rfl⟩ := List.mem_map.mp ho
            exact ⟨rfl, ⟨sch, hdb, hc⟩, T, by simp, rfl⟩
        · refine ⟨(h.sound t cols hg).1, fun o ho => ?_⟩
          obtain ⟨h1, h2, T', hT', h3⟩ := (h.sound t cols hg).2 o ho
          exact ⟨h1, h2, T', by simp [hT'], h3⟩
      · intro T' hT' x hx
        rw [foldl_appendCol_get]
        by_cases hc : T'.name = T.name ∧ sch.columns ≠ []
        · simp only [hc.1, ne_eq, hc.2, not_false_eq_true, and_self, if_true, Option.some.injEq,
            exists_eq_left']
          obtain ⟨sch', hs', hx'⟩ := hx
          rw [hc.1, hdb] at hs'
          cases hs'
          exact ⟨⟨x, [⟨T.name, x⟩]⟩, List.mem_append_right _ (List.mem_map.mpr ⟨x, hx', rfl⟩), rfl⟩
        · simp only [hc, if_false]
          rcases List.mem_append.mp hT' with h' | h'
          · exact h.complete T' h' x hx
          · simp only [List.mem_singleton] at h'
            subst h'
            obtain ⟨sch', hs', hx'⟩ := hx
            rw [hdb] at hs'
            cases hs'
            exact absurd ⟨rfl, List.ne_nil_of_mem hx'⟩ hc

/-- Resolution of one use in a flat query. -/
theorem flat_resolve (ord : KeyOrder) (hord : AnyKeyOrder ord) (path : List Nat)
    (tables : List Table) (hn : (aliases tables).Nodup) (c : FieldColumn) (hu : IsUse c) :
    (∀ cis, getColumnReferenceColumnInfos ord path (newInfo db tables []) [] c = .ok cis →
      ∃ t, Attributes db tables c t ∧ cis = [⟨t, c.name⟩]) ∧
    ((∃ t, Attributes db tables c t) →
      ∃ cis, getColumnReferenceColumnInfos ord path (newInfo db tables []) [] c = .ok cis) := by
  have brc := brc_ok db tables
  have hi : (newInfo db tables []).internalCols = buildReferencingColumns db tables := rfl
  have hsub : (newInfo db tables []).subqueryAsNames = [] := rfl
  have has : ∀ a, mapGet a (newInfo db tables []).asToName =
      (tables.find? (refName · = a)).map (·.name) := by
    intro a
    have := mapGet_foldl_alias tables [] hn a
    simp only [newInfo, keys, List.map_nil, List.foldl_nil, asOrName_eq]
    rw [this]
    cases tables.find? (refName · = a) <;> simp [mapGet]
  have hfind : ∀ T ∈ tables, tables.find? (refName · = refName T) = some T := by
    intro T hT
    cases hf : tables.find? (refName · = refName T) with
    | none =>
      rw [List.find?_eq_none] at hf
      exact absurd (hf T hT) (by simp)
    | some T' =>
      have h1 := List.mem_of_find?_eq_some hf
      have h2 : refName T' = refName T := by simpa using List.find?_some hf
      exact congrArg _ (List.inj_on_of_nodup_map hn h1 hT h2)
  simp only [getColumnReferenceColumnInfos, hu.1, hu.2, if_false]
  by_cases ht : c.table = []
  · simp only [ht, if_true, getColumnInfos, hi, hsub, List.not_mem_nil, if_false]
    constructor
    · intro cis h
      split at h
      · next cols hc =>
        cases h
        obtain ⟨k, _, hk⟩ := List.exists_of_findSome?_eq_some hc
        obtain ⟨o, ho, rfl⟩ := Option.map_eq_some_iff.mp hk
        have hmem := List.mem_of_find?_eq_some ho
        have hname : c.name = o.name := by simpa using List.find?_some ho
        cases hg : mapGet k (buildReferencingColumns db tables) with
        | none => simp [hg] at hmem
        | some l =>
          simp only [hg, Option.getD_some] at hmem
          obtain ⟨h1, h2, T, hT, h3⟩ := (brc.sound k l hg).2 o hmem
          exact ⟨k, ⟨T, hT, h3, .inl ht, hname ▸ h2⟩, by rw [h1, hname]⟩
      · simp [getColumnInfosFrom, mapGet, keys] at h
        split at h
        · next hc => 
          obtain ⟨k, hk, _⟩ := List.exists_of_findSome?_eq_some hc
          have := (hord (path ++ [1]) []).mem_iff.mp hk
          simp at this
        · cases h
    · rintro ⟨t, T, hT, rfl, _, hr⟩
      obtain ⟨cols, hg, o, ho, hx⟩ := brc.complete T hT _ hr
      have : ∃ r, getColumnInfosFrom (ord (path ++ [0]) (keys (buildReferencingColumns db tables)))
          (buildReferencingColumns db tables) c.name = some r := by
        rw [← Option.isSome_iff_exists]
        simp only [getColumnInfosFrom, List.findSome?_isSome_iff]
        refine ⟨T.name, (hord _ _).mem_iff.mpr (mapGet_key _ _ _ hg), ?_⟩
        simp only [hg, Option.getD_some, Option.isSome_map, List.find?_isSome, decide_eq_true_eq]
        exact ⟨o, ho, hx.symm⟩
      obtain ⟨r, hr'⟩ := this
      exact ⟨r, by simp [hr']⟩
  · simp only [ht, if_false, getReferencingColumnInfos, getTableColsFromAsName, has]
    constructor
    · intro cis h
      cases hf : tables.find? (refName · = c.table) with
      | none => simp [hf] at h
      | some T =>
        have hT := List.mem_of_find?_eq_some hf
        have hTa : refName T = c.table := by simpa using List.find?_some hf
        simp only [hf, Option.map_some, getTableColsFromName, hi] at h
        cases hg : mapGet T.name (buildReferencingColumns db tables) with
        | none => simp [hg, mapGet] at h
        | some cols =>
          simp only [hg] at h
          split at h
          · next o ho =>
            cases h
            have hmem := List.mem_of_find?_eq_some ho
            have hname : c.name = o.name := by simpa using List.find?_some ho
            obtain ⟨h1, h2, _⟩ := (brc.sound _ cols hg).2 o hmem
            exact ⟨T.name, ⟨T, hT, rfl, .inr hTa, hname ▸ h2⟩, by rw [h1, hname]⟩
          · cases h
    · rintro ⟨t, T, hT, rfl, hq, hr⟩
      have hTa : refName T = c.table := by
        rcases hq with h | h
        · exact absurd h ht
        · exact h
      obtain ⟨cols, hg, o, ho, hx⟩ := brc.complete T hT _ hr
      rw [← hTa, hfind T hT]
      simp only [Option.map_some, getTableColsFromName, hi, hg]
      cases hf : cols.find? (fun fc => c.name = fc.name) with
      | none =>
        rw [List.find?_eq_none] at hf
        exact absurd (hf o ho) (by simp [hx])
      | some o' => exact ⟨o'.refs, by simp⟩

/-- A `x.*` of a flat query is accepted when `x` is a FROM item of a table with columns. -/
def StarOK (tables : List Table) (c : FieldColumn) : Prop :=
  c.table = [] ∨ ∃ T ∈ tables, refName T = c.table ∧ ∃ x, Real db T.name x

/-- The uses of a query in order. -/
def usesOf (fields : List Field) : List FieldColumn :=
  (fields.flatMap (·.columns)).filter fun c => decide (c.type ≠ .subquery ∧ c.type ≠ .star)

/-- A use attributed to the table chosen by `res`. -/
def attributed (res : FieldColumn → Name) (c : FieldColumn) : FieldColumn :=
  { table := res c, name := c.name, type := c.type }

variable {db}

theorem flat_columnLoop (ord : KeyOrder) (hord : AnyKeyOrder ord) (tables : List Table)
    (hn : (aliases tables).Nodup) (res : FieldColumn → Name) (path : List Nat) (k : Nat)
    (cs : List FieldColumn)
    (hres : ∀ c ∈ cs, IsUse c → ∀ t, Attributes db tables c t ↔ t = res c) (m : FieldMap)
    (stars : List Name) : ∃ infos, columnLoop ord (newInfo db tables []) [] path k cs m stars =
      .ok (infos, recordAll ((cs.filter fun c => decide (c.type ≠ .subquery ∧ c.type ≠ .star)).map
        (attributed res)) m,
        ((cs.filter fun c => decide (c.type = .star)).map (·.table)).reverse ++ stars) := by
  induction cs generalizing k m stars with
  | nil => exact ⟨[], rfl⟩
  | cons c cs ih =>
    by_cases hu : IsUse c
    · obtain ⟨h1, h2⟩ := flat_resolve db ord hord (path ++ [k]) tables hn c hu
      obtain ⟨cis, hcis⟩ := h2 ⟨res c, (hres c (by simp) hu _).mpr rfl⟩
      obtain ⟨t, ht, rfl⟩ := h1 cis hcis
      have ht' := (hres c (by simp) hu t).mp ht
      subst ht'
      obtain ⟨infos, hi⟩ := ih (k + 1) (fun c hc => hres c (by simp [hc]))
        (addInfos c.type [⟨res c, c.name⟩] m) stars
      have hu1 := hu.1
      have hu2 := hu.2
      refine ⟨[⟨res c, c.name⟩] ++ infos, ?_⟩
      simp only [columnLoop, hcis, hu2, if_false, hi]
      simp [hu1, hu2, recordAll, attributed, addInfos]
    · have hty : c.type = .subquery ∨ c.type = .star := by
        by_contra hc
        push Not at hc
        exact hu hc
      have hcis : getColumnReferenceColumnInfos ord (path ++ [k]) (newInfo db tables []) [] c =
          .ok [] := by
        rcases hty with h | h <;> simp [getColumnReferenceColumnInfos, h]
      obtain ⟨infos, hi⟩ := ih (k + 1) (fun c hc => hres c (by simp [hc])) m
        (if c.type = .star then c.table :: stars else stars)
      refine ⟨infos, ?_⟩
      simp only [columnLoop, hcis, addInfos, List.foldl_nil, hi]
      rcases hty with h | h <;> simp [h]

theorem recordAll_append (a b : List FieldColumn) (m : FieldMap) :
    recordAll (a ++ b) m = recordAll b (recordAll a m) := by simp [recordAll]

theorem flat_fieldLoop (ord : KeyOrder) (hord : AnyKeyOrder ord) (tables : List Table)
    (hn : (aliases tables).Nodup) (res : FieldColumn → Name) (path : List Nat) (k : Nat)
    (fs : List Field)
    (hres : ∀ f ∈ fs, ∀ c ∈ f.columns, IsUse c → ∀ t, Attributes db tables c t ↔ t = res c)
    (m : FieldMap) (stars : List Name) : ∃ outs stars',
      fieldLoop ord (newInfo db tables []) [] path k fs m stars =
      .ok (outs, recordAll ((usesOf fs).map (attributed res)) m, stars') ∧
      ∀ x, x ∈ stars' ↔ x ∈ stars ∨ ∃ f ∈ fs, ∃ c ∈ f.columns, c.type = .star ∧ c.table = x := by
  induction fs generalizing k m stars with
  | nil => exact ⟨[], stars, rfl, by simp⟩
  | cons f fs ih =>
    obtain ⟨infos, h1⟩ := flat_columnLoop ord hord tables hn res (path ++ [k]) 0 f.columns
      (hres f (by simp)) m stars
    obtain ⟨outs, stars', h2, h3⟩ := ih (k + 1) (fun f hf => hres f (by simp [hf]))
      (recordAll ((f.columns.filter fun c => decide (c.type ≠ .subquery ∧ c.type ≠ .star)).map
        (attributed res)) m)
      (((f.columns.filter fun c => decide (c.type = .star)).map (·.table)).reverse ++ stars)
    refine ⟨(if (label f) ≠ [] then [⟨label f, infos⟩] else []) ++ outs, stars', ?_, ?_⟩
    · simp only [fieldLoop, h1, h2, outName_eq]
      simp only [usesOf, List.flatMap_cons, List.filter_append, List.map_append, recordAll_append]
    · intro x
      rw [h3]
      simp only [List.mem_append, List.mem_reverse, List.mem_map, List.mem_filter, decide_eq_true_eq,
        List.mem_cons]
      constructor
      · rintro ((⟨c, ⟨hc, ht⟩, rfl⟩ | h) | ⟨g, hg, h⟩)
        · exact .inr ⟨f, .inl rfl, c, hc, ht, rfl⟩
        · exact .inl h
        · exact .inr ⟨g, .inr hg, h⟩
      · rintro (h | ⟨g, rfl | hg, c, hc, ht, rfl⟩)
        · exact .inl (.inr h)
        · exact .inl (.inl ⟨c, ⟨hc, ht⟩, rfl⟩)
        · exact .inr ⟨g, hg, c, hc, ht, rfl⟩

theorem flat_starLoop (ord : KeyOrder) (tables : List Table) (hn : (aliases tables).Nodup)
    (path : List Nat) (k : Nat) (ts : List Name)
    (h : ∀ t ∈ ts, t = [] ∨ ∃ T ∈ tables, refName T = t ∧ ∃ x, Real db T.name x) :
    ∃ r, starLoop ord (newInfo db tables []) [] path k ts = .ok r := by
  induction ts generalizing k with
  | nil => exact ⟨[], rfl⟩
  | cons t ts ih =>
    obtain ⟨r, hr⟩ := ih (k + 1) (fun t ht => h t (by simp [ht]))
    simp only [starLoop, hr]
    by_cases ht : t = []
    · simp only [ht, if_true]; exact ⟨_, rfl⟩
    · simp only [ht, if_false]
      rcases h t (by simp) with h | ⟨T, hT, rfl, x, hx⟩
      · exact absurd h ht
      · have hfind : tables.find? (refName · = refName T) = some T := by
          cases hf : tables.find? (refName · = refName T) with
          | none =>
            rw [List.find?_eq_none] at hf
            exact absurd (hf T hT) (by simp)
          | some T' =>
            have h1 := List.mem_of_find?_eq_some hf
            have h2 : refName T' = refName T := by simpa using List.find?_some hf
            exact congrArg _ (List.inj_on_of_nodup_map hn h1 hT h2)
        obtain ⟨cols, hg, _⟩ := (brc_ok db tables).complete T hT x hx
        have ha := mapGet_foldl_alias tables [] hn (refName T)
        rw [hfind] at ha
        have : getTableColsFromAsName (newInfo db tables []) [] (refName T) = .ok cols := by
          simp only [getTableColsFromAsName, newInfo, keys, List.map_nil, List.foldl_nil, asOrName_eq, ha,
            getTableColsFromName, hg]
        simp only [this]
        exact ⟨_, rfl⟩

/-- **C17/C19 (flat queries, exact).** For a query without subqueries whose FROM items have different
names and in which every used column belongs to exactly one table, the recorded columns are exactly
the used ones, each under the table it belongs to. This holds for every iteration order. -/
theorem C19_flat_exact (ord : KeyOrder) (hord : AnyKeyOrder ord) (path : List Nat) (name : Name)
    (fields : List Field) (tables : List Table) (hn : (aliases tables).Nodup)
    (res : FieldColumn → Name)
    (hres : ∀ f ∈ fields, ∀ c ∈ f.columns, IsUse c → ∀ t, Attributes db tables c t ↔ t = res c)
    (hstar : ∀ f ∈ fields, ∀ c ∈ f.columns, c.type = .star → StarOK db tables c) :
    ∃ m, buildTableFields ord db path (.mk name fields [] tables []) = .ok m ∧
      ∀ t col, listedAs m t col =
        finalType (typesOf ((usesOf fields).map (attributed res)) t col) := by
  obtain ⟨outs, stars, h1, h2⟩ := flat_fieldLoop (db := db) ord hord tables hn res (path ++ [2]) 0
    fields hres [] []
  have hs : ∀ t ∈ ord (path ++ [3] ++ [0]) (uniq stars),
      t = [] ∨ ∃ T ∈ tables, refName T = t ∧ ∃ x, Real db T.name x := by
    intro t ht
    have := (mem_uniq _ _).mp ((hord _ _).mem_iff.mp ht)
    rcases (h2 t).mp this with h | ⟨f, hf, c, hc, hst, rfl⟩
    · simp at h
    · exact hstar f hf c hc hst
  obtain ⟨r, hr⟩ := flat_starLoop (db := db) ord tables hn (path ++ [3]) 1 _ hs
  refine ⟨recordAll ((usesOf fields).map (attributed res)) [], ?_, fun t col => C19_type_exact _ t col⟩
  have hm : (newInfo db tables []).refFields = [] := rfl
  simp only [buildTableFields, calcRefs, calcSubs, calcFieldScopes, hm, h1, listStar, hr]

/-- **C18 (flat queries, exact).** A flat query is rejected as soon as one of its columns belongs to
none of the tables it reads (under its qualifier). -/
theorem C18_flat_error (ord : KeyOrder) (hord : AnyKeyOrder ord) (path : List Nat) (name : Name)
    (fields : List Field) (tables : List Table) (hn : (aliases tables).Nodup)
    (f : Field) (hf : f ∈ fields) (c : FieldColumn) (hc : c ∈ f.columns) (hu : IsUse c)
    (hno : ∀ t, ¬Attributes db tables c t) :
    ∃ e, buildTableFields ord db path (.mk name fields [] tables []) = .error e := by
  have hcol : ∀ (cs : List FieldColumn) (p : List Nat) (k : Nat) (m : FieldMap) (stars : List Name),
      c ∈ cs → ∃ e, columnLoop ord (newInfo db tables []) [] p k cs m stars = .error e := by
    intro cs
    induction cs with
    | nil => intro p k m stars h; simp at h
    | cons d ds ih =>
      intro p k m stars h
      simp only [columnLoop]
      cases hg : getColumnReferenceColumnInfos ord (p ++ [k]) (newInfo db tables []) [] d with
      | error e => exact ⟨e, rfl⟩
      | ok cis =>
        rcases List.mem_cons.mp h with rfl | h
        · obtain ⟨t, ht, _⟩ := (flat_resolve db ord hord _ tables hn c hu).1 cis hg
          exact absurd ht (hno t)
        · obtain ⟨e, he⟩ := ih p (k + 1) (addInfos d.type cis m)
            (if d.type = .star then d.table :: stars else stars) h
          simp only [he]
          exact ⟨e, rfl⟩
  have hfl : ∀ (fs : List Field) (p : List Nat) (k : Nat) (m : FieldMap) (stars : List Name),
      f ∈ fs → ∃ e, fieldLoop ord (newInfo db tables []) [] p k fs m stars = .error e := by
    intro fs
    induction fs with
    | nil => intro p k m stars h; simp at h
    | cons g gs ih =>
      intro p k m stars h
      simp only [fieldLoop]
      cases hg : columnLoop ord (newInfo db tables []) [] (p ++ [k]) 0 g.columns m stars with
      | error e => exact ⟨e, rfl⟩
      | ok r =>
        obtain ⟨infos, m', stars'⟩ := r
        rcases List.mem_cons.mp h with rfl | h
        · obtain ⟨e, he⟩ := hcol f.columns (p ++ [k]) 0 m stars hc
          rw [hg] at he
          cases he
        · obtain ⟨e, he⟩ := ih p (k + 1) m' stars' h
          simp only [he]
          exact ⟨e, rfl⟩
  obtain ⟨e, he⟩ := hfl fields (path ++ [2]) 0 [] [] hf
  have hm : (newInfo db tables []).refFields = [] := rfl
  exact ⟨e, by simp only [buildTableFields, calcRefs, calcSubs, calcFieldScopes, hm, he]⟩

end

/-! ## Where the English claims fail -/

/-- test data -/
def itemSchemas : List TableSchema :=
  [⟨n "items", [n "id", n "price", n "name"], [n "id"]⟩]

/-- `SELECT SUM(price) FROM items WHERE price > 10` -/
def sumQuery : Scope :=
  .mk (n "<root>") [fld [col "" "price" .aggregation], fld [col "" "price" .condition]] []
    [{ name := n "items" }] []

/-- **C19 is false in general.** In `SELECT SUM(price) FROM items WHERE price > 10` the column is used
in a condition, but is listed as an aggregation, and no index is suggested. -/
theorem C19_aggregate_hides_condition :
    (∃ m, buildTableFields idKeys (schemaMap itemSchemas) [0] sumQuery = .ok m ∧
      listedAs m (n "items") (n "price") = some .aggregation) ∧
    suggest idOrder idKeys idEntries sortT itemSchemas [sumQuery] = .ok [] := by
  refine ⟨⟨[(n "items", [{ table := n "items", name := n "price", type := .aggregation }])], ?_, ?_⟩, ?_⟩
  all_goals decide +kernel

/-- With the plain column selected instead, the same condition gives an index. -/
example : suggest idOrder idKeys idEntries sortT itemSchemas
    [.mk (n "<root>") [fld [col "" "price" .reference], fld [col "" "price" .condition]] []
      [{ name := n "items" }] []] = .ok [newIndexTarget (n "items") [n "price"]] := by decide +kernel

/-- test data -/
def twoSchemas : List TableSchema :=
  [⟨n "users", [n "id", n "name"], [n "id"]⟩, ⟨n "tasks", [n "id", n "name"], [n "id"]⟩]

/-- `SELECT 1 FROM users JOIN tasks USING(name) WHERE name = 'x'` -/
def ambiguousQuery : Scope :=
  .mk (n "<root>") [fld [col "" "name" .condition]] [] [{ name := n "users" }, { name := n "tasks" }] []

/-- **C15 is false for ambiguous names.** An unqualified column that two tables of FROM have (legal
with `JOIN … USING`) is attributed to whichever table the map iteration meets first: two runs on the
same input suggest different indexes. -/
theorem C15_ambiguous_name_nondeterministic :
    suggest idOrder idKeys idEntries sortT twoSchemas [ambiguousQuery] =
      .ok [newIndexTarget (n "users") [n "name"]] ∧
    suggest idOrder revKeys idEntries sortT twoSchemas [ambiguousQuery] =
      .ok [newIndexTarget (n "tasks") [n "name"]] ∧
    Choices idOrder idKeys idEntries sortT ∧ Choices idOrder revKeys idEntries sortT := by
  refine ⟨by decide +kernel, by decide +kernel, ?_, ?_⟩
  · exact ⟨fun _ _ => .refl _, fun _ _ => .refl _, fun _ _ => .refl _, sortT_isSort⟩
  · exact ⟨fun _ _ => .refl _, fun _ _ => List.reverse_perm _, fun _ _ => .refl _, sortT_isSort⟩

/-- `SELECT u.id FROM users u WHERE EXISTS (SELECT t.id FROM tasks t WHERE EXISTS
(SELECT u.name FROM tasks x))`, a legal query. -/
def deepQuery : Scope :=
  .mk (n "<root>") [fld [col "u" "id" .reference], fld [col "" "" .subquery]]
    [.mk (n "<field0>") [fld [col "t" "id" .reference], fld [col "" "" .subquery]]
      [.mk (n "<field1>") [fld [col "u" "name" .reference]] [] [{ asName := n "x", name := n "tasks" }] []]
      [{ asName := n "t", name := n "tasks" }] []]
    [{ asName := n "u", name := n "users" }] []

/-- A subquery can refer to the query around it but not to the one around that: the legal query
`deepQuery`, which satisfies the scoping rules, is rejected. -/
theorem C18_correlation_depth_two_rejected :
    TablesDefined [] deepQuery ∧
    suggest idOrder idKeys idEntries sortT twoSchemas [deepQuery] =
      .error (.fields (.noTable (n "u"))) := by
  refine ⟨?_, by decide +kernel⟩
  simp [deepQuery, TablesDefined, TablesDefinedSub, TablesDefinedAll, fld, col, aliases, refName,
    n, Scope.name]

/-! ### Non-vacuity of the flat theorem -/

/-- `SELECT users.name, t.id FROM users JOIN tasks t ON users.id = t.id WHERE users.id > 1` -/
def flatFields : List Field :=
  [fld [col "users" "name" .reference], fld [col "t" "id" .reference],
   fld [col "users" "id" .condition, col "t" "id" .condition], fld [col "users" "id" .condition]]

/-- test data -/
def flatTables : List Table := [{ name := n "users" }, { asName := n "t", name := n "tasks" }]

/-- test data -/
def flatRes (c : FieldColumn) : Name := if c.table = n "t" then n "tasks" else n "users"

example : (aliases flatTables).Nodup := by decide +kernel
example : ∀ f ∈ flatFields, ∀ c ∈ f.columns, IsUse c →
    ∀ t, Attributes (schemaMap twoSchemas) flatTables c t ↔ t = flatRes c := by
  intro f hf c hc _ t
  have hall : ∀ c ∈ flatFields.flatMap (·.columns),
      (c.table = n "users" ∧ (c.name = n "id" ∨ c.name = n "name")) ∨
      (c.table = n "t" ∧ (c.name = n "id" ∨ c.name = n "name")) := by decide +kernel
  have hr : ∀ x, x = n "id" ∨ x = n "name" →
      Real (schemaMap twoSchemas) (n "users") x ∧ Real (schemaMap twoSchemas) (n "tasks") x := by
    intro x hx
    refine ⟨⟨⟨n "users", [n "id", n "name"], [n "id"]⟩, by decide +kernel, ?_⟩,
      ⟨⟨n "tasks", [n "id", n "name"], [n "id"]⟩, by decide +kernel, ?_⟩⟩ <;> simpa using hx
  have e1 : n "users" ≠ n "t" := by decide +kernel
  have e2 : n "users" ≠ [] := by decide +kernel
  have e3 : n "t" ≠ [] := by decide +kernel
  have a1 : refName ({ name := n "users" } : Table) = n "users" := by simp [refName]
  have a2 : refName ({ asName := n "t", name := n "tasks" } : Table) = n "t" := by
    decide +kernel
  rcases hall c (List.mem_flatMap.mpr ⟨f, hf, hc⟩) with ⟨ht, hx⟩ | ⟨ht, hx⟩
  · simp only [Attributes, flatTables, List.mem_cons, List.not_mem_nil, or_false, exists_eq_or_imp,
      exists_eq_left, ht, flatRes, e1, e2, a1, a2, if_false, false_or, true_and, e1.symm, false_and,
      and_false]
    constructor
    · rintro ⟨rfl, _⟩; rfl
    · rintro rfl; exact ⟨rfl, (hr _ hx).1⟩
  · simp only [Attributes, flatTables, List.mem_cons, List.not_mem_nil, or_false, exists_eq_or_imp,
      exists_eq_left, ht, flatRes, e1, e3, a1, a2, if_true, false_or, true_and, false_and,
      and_false]
    constructor
    · rintro ⟨rfl, _⟩; rfl
    · rintro rfl; exact ⟨rfl, (hr _ hx).2⟩

end Verif.Fields
