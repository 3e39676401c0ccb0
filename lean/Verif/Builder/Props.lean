import Verif.Builder.Lemmas
import Mathlib.Data.List.Sort
/-!
# Properties C13-C16: index candidates
-/
namespace Verif.Builder
open Verif.Index Verif.Lib Spec

/-! ## C13 -/

/-- **C13.** For one table, whatever order sets are iterated in, the candidate column lists are
exactly the efficient combinations of the used columns. -/
theorem C13_candidates_exact (ord : Order) (hord : AnyOrder ord) (path : List Nat)
    (cols : List FieldColumn) (hn : DistinctNames cols) (xs : List IndexField) :
    xs ∈ extractEfficient ord path cols ↔
      ∃ l, Efficient cols l ∧ xs = l.map (fun c => ⟨c.name, c.type⟩) :=
  mem_extractEfficient ord hord path cols hn.of_map xs

/-- **C13.** No combination is produced twice. -/
theorem C13_no_duplicates (ord : Order) (hord : AnyOrder ord) (path : List Nat)
    (cols : List FieldColumn) (hn : DistinctNames cols) :
    ((extractEfficient ord path cols).map (fun fs => fs.map (·.name))).Nodup := by
  have hnd : (extractEfficient ord path cols).Nodup :=
    (composite_nodup ord hord _ path cols hn (Nat.le_refl _)).sublist List.filter_sublist
  refine hnd.map_on ?_
  intro x hx y hy hxy
  obtain ⟨l, hl, rfl⟩ := (mem_extractEfficient ord hord path cols hn.of_map x).mp hx
  obtain ⟨m, hm, rfl⟩ := (mem_extractEfficient ord hord path cols hn.of_map y).mp hy
  simp only [List.map_map] at hxy
  have key : ∀ (l m : List FieldColumn), (∀ c ∈ l, c ∈ cols) → (∀ c ∈ m, c ∈ cols) →
      l.map (fun c => c.name) = m.map (fun c => c.name) → l = m := by
    intro l
    induction l with
    | nil => intro m _ _ h; cases m <;> simp_all
    | cons a l ih =>
      intro m hl hm h
      cases m with
      | nil => simp at h
      | cons b m =>
        simp only [List.map_cons, List.cons.injEq] at h
        rw [ih m (fun c hc => hl c (by simp [hc])) (fun c hc => hm c (by simp [hc])) h.2]
        congr 1
        exact List.inj_on_of_nodup_map hn (hl a (by simp)) (hm b (by simp)) h.1
  rw [key l m hl.2.2.1 hm.2.2.1 hxy]

/-- An aggregated column prevents every plain reference of the table from being suggested: the code
counts it among the columns that a covering combination must contain. -/
theorem C13_aggregate_blocks_references (ord : Order) (hord : AnyOrder ord) (path : List Nat)
    (cols : List FieldColumn) (hn : DistinctNames cols) (a : FieldColumn) (ha : a ∈ cols)
    (hat : a.type ≠ .reference ∧ a.type ≠ .condition) (xs : List IndexField)
    (hx : xs ∈ extractEfficient ord path cols) : ∀ f ∈ xs, f.type = .condition := by
  obtain ⟨l, ⟨_, _, hsub, hor⟩, rfl⟩ := (C13_candidates_exact ord hord path cols hn xs).mp hx
  intro f hf
  obtain ⟨c, hc, rfl⟩ := List.mem_map.mp hf
  rcases hor with h | ⟨hall, conds, refs, rfl, h1, h2, _⟩
  · exact h c hc
  · rcases List.mem_append.mp (hall a ha) with h | h
    · exact absurd (h1 a h) hat.2
    · exact absurd (h2 a h) hat.1

/-- test data -/
def fc (n : String) (t : FieldType) : FieldColumn := { table := "t".toList, name := n.toList, type := t }
/-- test data -/
def idOrder : Order := fun _ l => l

example : AnyOrder idOrder := fun _ _ => .refl _
example : DistinctNames [fc "b" .reference, fc "x" .condition, fc "a" .reference] := by
  unfold DistinctNames; decide +kernel
example : (extractEfficient idOrder [] [fc "b" .reference, fc "x" .condition, fc "a" .reference]).map
    (fun l => l.map (fun f => String.ofList f.name)) = [["x", "a", "b"], ["x"]] := by decide +kernel
/-- Two condition columns: both orders, and each alone. -/
example : (extractEfficient idOrder [] [fc "b" .condition, fc "a" .condition]).map
    (fun l => l.map (fun f => String.ofList f.name)) = [["b"], ["a", "b"], ["a"], ["b", "a"]] := by
  decide +kernel

/-! ## C14 -/

/-- **C14.** A combination is dropped exactly when all its columns belong to the primary key; the
others survive in order. -/
theorem C14_pk_only_dropped (pks : List Name) (l : List (List IndexField)) :
    (removePkOnly pks l).Sublist l ∧
      ∀ fs, (fs ∈ removePkOnly pks l ↔ fs ∈ l ∧ ¬∀ f ∈ fs, f.name ∈ pks) := by
  refine ⟨List.filter_sublist, ?_⟩
  intro fs
  simp only [removePkOnly, List.mem_filter, Bool.not_eq_true', ← Bool.not_eq_true, List.all_eq_true,
    decide_eq_true_eq]

/-- **C14.** Nothing else is lost: the number of kept combinations equal to `fs` is unchanged unless
`fs` is within the primary key. -/
theorem C14_count (pks : List Name) (l : List (List IndexField)) (fs : List IndexField) :
    (removePkOnly pks l).count fs = if ∀ f ∈ fs, f.name ∈ pks then 0 else l.count fs := by
  split
  · next h =>
    rw [List.count_eq_zero]
    intro hm
    exact ((C14_pk_only_dropped pks l).2 fs |>.mp hm).2 h
  · next h =>
    rw [removePkOnly, List.count_filter]
    simpa using h

/-- **C14.** In particular the combination is dropped even when its columns are not a leading part of
the primary key: (`b`) is dropped for the primary key (`a`, `b`) although that key cannot serve it. -/
theorem C14_non_prefix_also_dropped :
    removePkOnly ["a".toList, "b".toList] [[⟨"b".toList, .condition⟩]] = [] := by decide +kernel

/-! ## C15, C16 -/

/-- Entries of a Go map in some order, with the columns of each table in the order they were added. -/
abbrev TableFields := List (Name × List FieldColumn)

theorem uniq_of_distinct {f : List FieldColumn} (h : DistinctNames f) : uniq f = f :=
  uniq_of_nodup f h.of_map

theorem composition_perm (ord ord' : Order) (hord : AnyOrder ord) (hord' : AnyOrder ord')
    (path path' : List Nat) (f : List FieldColumn) (hf : DistinctNames f) (pks : List Name) :
    (buildIndexComposition ord path f pks).Perm (buildIndexComposition ord' path' f pks) := by
  simp only [buildIndexComposition, uniq_of_distinct hf]
  have hnd : ∀ (o : Order) (p : List Nat), AnyOrder o → (removePkOnly pks (extractEfficient o p f)).Nodup :=
    fun o p ho => (composite_nodup o ho _ p f hf (Nat.le_refl _)).sublist
      (List.filter_sublist.trans List.filter_sublist)
  rw [List.perm_ext_iff_of_nodup (hnd ord path hord) (hnd ord' path' hord')]
  intro xs
  rw [(C14_pk_only_dropped _ _).2, (C14_pk_only_dropped _ _).2,
    mem_extractEfficient ord hord _ _ hf.of_map, mem_extractEfficient ord' hord' _ _ hf.of_map]

/-- The targets of one table. -/
def tableTargets (ord : Order) (path : List Nat) (schemas : List TableSchema)
    (e : Name × List FieldColumn) : List IndexTargetTable :=
  (buildIndexComposition ord path e.2 ((schemaMap schemas e.1).map (·.primaryKeys) |>.getD [])).map
    fun fs => ⟨e.1, fs⟩

theorem buildTables_ok {E : Type} (ord : Order) (schemas : List TableSchema) (i : Nat)
    (path : List Nat) (m : TableFields) (h : ∀ e ∈ m, (schemaMap schemas e.1).isSome = true) :
    buildTables (E := E) ord schemas i path m =
      .ok ((m.zipIdx i).flatMap fun e => tableTargets ord (path ++ [e.2]) schemas e.1) := by
  induction m generalizing i with
  | nil => rfl
  | cons e m ih =>
    obtain ⟨t, f⟩ := e
    obtain ⟨sch, hs⟩ := Option.isSome_iff_exists.mp (h (t, f) (by simp))
    have := ih (i + 1) (fun e he => h e (by simp [he]))
    simp [buildTables, hs, this, tableTargets]

theorem buildTables_error {E : Type} (ord : Order) (schemas : List TableSchema) (i : Nat)
    (path : List Nat) (m : TableFields) (h : ¬∀ e ∈ m, (schemaMap schemas e.1).isSome = true) :
    ∃ t, buildTables (E := E) ord schemas i path m = .error (.unknownTable t) := by
  induction m generalizing i with
  | nil => simp at h
  | cons e m ih =>
    obtain ⟨t, f⟩ := e
    simp only [buildTables]
    cases hs : schemaMap schemas t with
    | none => exact ⟨t, rfl⟩
    | some sch =>
      obtain ⟨t', ht'⟩ := ih (i + 1) (by
        intro hall
        apply h
        intro e he
        rcases List.mem_cons.mp he with rfl | he
        · simp [hs]
        · exact hall e he)
      exact ⟨t', by simp [ht']⟩

theorem zipIdx_flatMap_perm {β γ : Type} (g g' : β → Nat → List γ) (l l' : List β) (i j : Nat)
    (hg : ∀ x ∈ l, ∀ i j, (g x i).Perm (g' x j)) (hp : l.Perm l') :
    ((l.zipIdx i).flatMap fun e => g e.1 e.2).Perm ((l'.zipIdx j).flatMap fun e => g' e.1 e.2) := by
  have step : ∀ (h h' : β → Nat → List γ) (l : List β) (i j : Nat),
      (∀ x ∈ l, ∀ i j, (h x i).Perm (h' x j)) →
      ((l.zipIdx i).flatMap fun e => h e.1 e.2).Perm ((l.zipIdx j).flatMap fun e => h' e.1 e.2) := by
    intro h h' l
    induction l with
    | nil => intro i j _; exact .refl _
    | cons x xs ih =>
      intro i j hh
      simp only [List.zipIdx_cons, List.flatMap_cons]
      exact (hh x (by simp) i j).append (ih _ _ (fun y hy => hh y (by simp [hy])))
  -- compare with the order-free version `g x 0`
  have e1 : ((l.zipIdx i).flatMap fun e => g e.1 e.2).Perm (l.flatMap fun x => g' x 0) := by
    have := step g (fun x _ => g' x 0) l i 0 (fun x hx i j => hg x hx i 0)
    refine this.trans ?_
    have : ((l.zipIdx 0).flatMap fun e => g' e.1 0) = l.flatMap fun x => g' x 0 := by
      conv => rhs; rw [← List.zipIdx_map_fst 0 l, List.flatMap_map]
    rw [this]
  have hg' : ∀ x ∈ l', ∀ i j, (g' x i).Perm (g' x j) := fun x hx i j =>
    (hg x (hp.mem_iff.mpr hx) 0 i).symm.trans (hg x (hp.mem_iff.mpr hx) 0 j)
  have e2 : ((l'.zipIdx j).flatMap fun e => g' e.1 e.2).Perm (l'.flatMap fun x => g' x 0) := by
    have := step g' (fun x _ => g' x 0) l' j 0 (fun x hx i j => hg' x hx i 0)
    refine this.trans ?_
    have : ((l'.zipIdx 0).flatMap fun e => g' e.1 0) = l'.flatMap fun x => g' x 0 := by
      conv => rhs; rw [← List.zipIdx_map_fst 0 l', List.flatMap_map]
    rw [this]
  exact e1.trans ((hp.flatMap_right _).trans e2.symm)

/-- Two results of `buildTableFields` differ only in map iteration order. -/
inductive SameFields {E : Type} : Except E TableFields → Except E TableFields → Prop
  | ok {m m'} : m.Perm m' → SameFields (.ok m) (.ok m')
  | err (e) : SameFields (.error e) (.error e)

/-- Results that agree up to which of several unknown tables is named in the error. -/
def SameOutcome {E A : Type} (R : A → A → Prop) : Except (BuildErr E) A → Except (BuildErr E) A → Prop
  | .ok a, .ok b => R a b
  | .error (.fields e), .error (.fields e') => e = e'
  | .error (.unknownTable _), .error (.unknownTable _) => True
  | _, _ => False

theorem buildScopes_same {E : Type} (ord ord' : Order) (hord : AnyOrder ord) (hord' : AnyOrder ord')
    (schemas : List TableSchema) (i j : Nat) (ms ms' : List (Except E TableFields))
    (hs : List.Forall₂ SameFields ms ms')
    (hd : ∀ m, .ok m ∈ ms → ∀ e ∈ m, DistinctNames e.2) :
    SameOutcome List.Perm (buildScopes ord schemas i ms) (buildScopes ord' schemas j ms') := by
  induction hs generalizing i j with
  | nil => simp [buildScopes, SameOutcome]
  | @cons a b as bs hab hrest ih =>
    have ih' := ih (i + 1) (j + 1) (fun m hm => hd m (by simp [hm]))
    cases hab with
    | err e => simp [buildScopes, SameOutcome]
    | @ok m m' hp =>
      have hdm := hd m (by simp)
      simp only [buildScopes]
      by_cases hall : ∀ e ∈ m, (schemaMap schemas e.1).isSome = true
      · have hall' : ∀ e ∈ m', (schemaMap schemas e.1).isSome = true :=
          fun e he => hall e (hp.mem_iff.mpr he)
        rw [buildTables_ok ord schemas 0 [i] m hall, buildTables_ok ord' schemas 0 [j] m' hall']
        have hperm := zipIdx_flatMap_perm
          (fun e k => tableTargets ord ([i] ++ [k]) schemas e)
          (fun e k => tableTargets ord' ([j] ++ [k]) schemas e) m m' 0 0
          (fun e he k k' => (composition_perm ord ord' hord hord' _ _ e.2 (hdm e he) _).map _) hp
        revert ih'
        cases h1 : buildScopes ord schemas (i + 1) as with
        | error e1 =>
          cases h2 : buildScopes ord' schemas (j + 1) bs with
          | error e2 => intro h; simpa using h
          | ok _ => intro h; cases e1 <;> simp [SameOutcome] at h
        | ok t1 =>
          cases h2 : buildScopes ord' schemas (j + 1) bs with
          | error e2 => intro h; cases e2 <;> simp [SameOutcome] at h
          | ok t2 =>
            intro h
            simp only [SameOutcome] at h ⊢
            exact hperm.append h
      · have hall' : ¬∀ e ∈ m', (schemaMap schemas e.1).isSome = true :=
          fun h => hall fun e he => h e (hp.mem_iff.mp he)
        obtain ⟨t, ht⟩ := buildTables_error (E := E) ord schemas 0 [i] m hall
        obtain ⟨t', ht'⟩ := buildTables_error (E := E) ord' schemas 0 [j] m' hall'
        simp [ht, ht', SameOutcome]

/-- **C15 (builder).** The suggestion list — content and order — does not depend on the order in which
any map or set is iterated, nor on how the unstable sort treats equal elements. -/
theorem C15_order_independent {E : Type} (ord ord' : Order) (hord : AnyOrder ord)
    (hord' : AnyOrder ord') (srt srt' : List IndexTargetTable → List IndexTargetTable)
    (hsrt : IsSort srt) (hsrt' : IsSort srt') (schemas : List TableSchema)
    (ms ms' : List (Except E TableFields)) (hs : List.Forall₂ SameFields ms ms')
    (hd : ∀ m, .ok m ∈ ms → ∀ e ∈ m, DistinctNames e.2) :
    SameOutcome Eq (build ord srt schemas ms) (build ord' srt' schemas ms') := by
  have h := buildScopes_same ord ord' hord hord' schemas 0 0 ms ms' hs hd
  simp only [build]
  revert h
  cases h1 : buildScopes ord schemas 0 ms with
  | error e1 =>
    cases h2 : buildScopes ord' schemas 0 ms' with
    | error e2 => cases e1 <;> cases e2 <;> simp [SameOutcome]
    | ok _ => intro h; cases e1 <;> simp [SameOutcome] at h
  | ok t1 =>
    cases h2 : buildScopes ord' schemas 0 ms' with
    | error e2 => intro h; cases e2 <;> simp [SameOutcome] at h
    | ok t2 =>
      intro h
      simp only [SameOutcome] at h ⊢
      refine sorted_unique ?_ (hsrt t1).2 (hsrt' t2).2
      exact (((hsrt t1).1.trans h).trans (hsrt' t2).1.symm).map _

/-- **C15.** With the same input and no unknown table, any two runs give literally the same list. -/
theorem C15_same_list {E : Type} (ord ord' : Order) (hord : AnyOrder ord)
    (hord' : AnyOrder ord') (srt srt' : List IndexTargetTable → List IndexTargetTable)
    (hsrt : IsSort srt) (hsrt' : IsSort srt') (schemas : List TableSchema)
    (ms ms' : List (Except E TableFields)) (hs : List.Forall₂ SameFields ms ms')
    (hd : ∀ m, .ok m ∈ ms → ∀ e ∈ m, DistinctNames e.2) (out : List IndexTarget)
    (h : build ord srt schemas ms = .ok out) : build ord' srt' schemas ms' = .ok out := by
  have := C15_order_independent ord ord' hord hord' srt srt' hsrt hsrt' schemas ms ms' hs hd
  rw [h] at this
  revert this
  cases hb : build ord' srt' schemas ms' with
  | error e => intro h; cases e <;> simp [SameOutcome] at h
  | ok out' => intro h; simp only [SameOutcome] at h; rw [h]

/-- **C16.** The suggestion list is sorted by table, number of columns and column names. -/
theorem C16_sorted {E : Type} (ord : Order) (srt : List IndexTargetTable → List IndexTargetTable)
    (hsrt : IsSort srt) (schemas : List TableSchema) (ms : List (Except E TableFields))
    (out : List IndexTarget) (h : build ord srt schemas ms = .ok out) :
    out.Pairwise Before := by
  simp only [build] at h
  split at h
  · cases h
  · cases h
    rw [List.pairwise_map]
    exact (hsrt _).2.imp (fun h => (less_false_iff _ _).mp h)

theorem Efficient.uniq_iff (cols l : List FieldColumn) : Efficient (uniq cols) l ↔ Efficient cols l := by
  simp only [Efficient, mem_uniq]

theorem build_exact {E : Type} (ord : Order) (hord : AnyOrder ord)
    (srt : List IndexTargetTable → List IndexTargetTable) (hsrt : IsSort srt)
    (schemas : List TableSchema) (ms : List TableFields)
    (hk : ∀ m ∈ ms, ∀ e ∈ m, (schemaMap schemas e.1).isSome = true) :
    ∃ out, build (E := E) ord srt schemas (ms.map .ok) = .ok out ∧ ∀ t, t ∈ out ↔
      ∃ m ∈ ms, ∃ e ∈ m, ∃ sch, schemaMap schemas e.1 = some sch ∧ ∃ l, Efficient e.2 l ∧
        (∃ c ∈ l, c.name ∉ sch.primaryKeys) ∧ t = newIndexTarget e.1 (l.map (·.name)) := by
  have hsc : ∀ (i : Nat), ∃ ts, buildScopes (E := E) ord schemas i (ms.map .ok) = .ok ts ∧ ∀ t, t ∈ ts ↔
      ∃ m ∈ ms, ∃ e ∈ m, ∃ sch, schemaMap schemas e.1 = some sch ∧ ∃ l, Efficient e.2 l ∧
        (∃ c ∈ l, c.name ∉ sch.primaryKeys) ∧ t = ⟨e.1, l.map (·.toIndexField)⟩ := by
    induction ms with
    | nil => intro i; exact ⟨[], rfl, by simp⟩
    | cons m ms ih =>
      intro i
      obtain ⟨ts, hts, hmem⟩ := ih (fun m hm => hk m (by simp [hm])) (i + 1)
      refine ⟨((m.zipIdx 0).flatMap fun e => tableTargets ord ([i] ++ [e.2]) schemas e.1) ++ ts,
        by simp only [List.map_cons, buildScopes, hts,
          buildTables_ok (E := E) ord schemas 0 [i] m (hk m (by simp))], ?_⟩
      intro t
      rw [List.mem_append, hmem]
      have hhead : t ∈ ((m.zipIdx 0).flatMap fun e => tableTargets ord ([i] ++ [e.2]) schemas e.1) ↔
          ∃ e ∈ m, ∃ sch, schemaMap schemas e.1 = some sch ∧ ∃ l, Efficient e.2 l ∧
            (∃ c ∈ l, c.name ∉ sch.primaryKeys) ∧ t = ⟨e.1, l.map (·.toIndexField)⟩ := by
        have one : ∀ e ∈ m, ∀ k, (t ∈ tableTargets ord ([i] ++ [k]) schemas e ↔
            ∃ sch, schemaMap schemas e.1 = some sch ∧ ∃ l, Efficient e.2 l ∧
            (∃ c ∈ l, c.name ∉ sch.primaryKeys) ∧ t = ⟨e.1, l.map (·.toIndexField)⟩) := by
          intro e he k
          obtain ⟨sch, hs⟩ := Option.isSome_iff_exists.mp (hk m (by simp) e he)
          simp only [tableTargets, hs, Option.map_some, Option.getD_some, List.mem_map,
            buildIndexComposition, (C14_pk_only_dropped _ _).2,
            mem_extractEfficient ord hord _ _ (uniq_nodup _), Efficient.uniq_iff, Option.some.injEq]
          constructor
          · rintro ⟨fs, ⟨⟨l, hl, rfl⟩, hn⟩, rfl⟩
            refine ⟨sch, rfl, l, hl, ?_, rfl⟩
            by_contra hc
            push Not at hc
            apply hn
            intro f hf
            obtain ⟨c, hc', rfl⟩ := List.mem_map.mp hf
            exact hc c hc'
          · rintro ⟨sch', rfl, l, hl, ⟨c, hc, hn⟩, rfl⟩
            refine ⟨_, ⟨⟨l, hl, rfl⟩, ?_⟩, rfl⟩
            intro hall
            exact hn (hall c.toIndexField (List.mem_map.mpr ⟨c, hc, rfl⟩))
        rw [List.mem_flatMap]
        constructor
        · rintro ⟨⟨e, k⟩, hp, ht⟩
          have he := List.fst_mem_of_mem_zipIdx hp
          exact ⟨e, he, (one e he k).mp ht⟩
        · rintro ⟨e, he, ht⟩
          obtain ⟨k, hk', ek⟩ := List.getElem_of_mem he
          exact ⟨(e, k), by rw [List.mk_mem_zipIdx_iff_getElem?]; simp [hk', ek], (one e he k).mpr ht⟩
      rw [hhead]
      simp only [List.mem_cons]
      constructor
      · rintro (h | ⟨m', hm', h⟩)
        · exact ⟨m, .inl rfl, h⟩
        · exact ⟨m', .inr hm', h⟩
      · rintro ⟨m', rfl | hm', h⟩
        · exact .inl h
        · exact .inr ⟨m', hm', h⟩
  obtain ⟨ts, hts, hmem⟩ := hsc 0
  refine ⟨(srt ts).map (·.toIndexTarget), by simp only [build, hts], ?_⟩
  intro t
  simp only [List.mem_map, (hsrt ts).1.mem_iff, hmem]
  constructor
  · rintro ⟨_, ⟨m, hm, e, he, sch, hs, l, hl, hc, rfl⟩, rfl⟩
    exact ⟨m, hm, e, he, sch, hs, l, hl, hc, by
      simp [IndexTargetTable.toIndexTarget, FieldColumn.toIndexField, Function.comp_def]⟩
  · rintro ⟨m, hm, e, he, sch, hs, l, hl, hc, rfl⟩
    exact ⟨_, ⟨m, hm, e, he, sch, hs, l, hl, hc, rfl⟩, by
      simp [IndexTargetTable.toIndexTarget, FieldColumn.toIndexField, Function.comp_def]⟩

theorem schemaMap_iff (schemas : List TableSchema) (t : Name) (sch : TableSchema) :
    schemaMap schemas t = some sch ↔ SchemaOf schemas t sch := by
  simp only [schemaMap, SchemaOf, List.find?_eq_some_iff_append, decide_eq_true_eq, Bool.not_eq_eq_eq_not,
    Bool.not_true, decide_eq_false_iff_not]
  constructor
  · rintro ⟨h, as, bs, e, hn⟩
    refine ⟨bs.reverse, as.reverse, ?_, h, fun s hs => hn s (by simpa using hs)⟩
    rw [← List.reverse_reverse schemas, e]
    simp
  · rintro ⟨bs, as, rfl, h, hn⟩
    exact ⟨h, as.reverse, bs.reverse, by simp, fun s hs => hn s (by simpa using hs)⟩

/-- **C13 + C14 for whole queries.** A target is suggested exactly when, in some scope and for some
table used there, it is an efficient combination not within that table's primary key. -/
theorem C13_build_exact {E : Type} (ord : Order) (hord : AnyOrder ord)
    (srt : List IndexTargetTable → List IndexTargetTable) (hsrt : IsSort srt)
    (schemas : List TableSchema) (ms : List TableFields)
    (hk : ∀ m ∈ ms, ∀ e ∈ m, ∃ sch, SchemaOf schemas e.1 sch) :
    ∃ out, build (E := E) ord srt schemas (ms.map .ok) = .ok out ∧ ∀ t, t ∈ out ↔
      ∃ m ∈ ms, ∃ e ∈ m, ∃ sch, SchemaOf schemas e.1 sch ∧ ∃ l, Efficient e.2 l ∧
        (∃ c ∈ l, c.name ∉ sch.primaryKeys) ∧
        t.tableName = e.1 ∧ t.columns.map (·.name) = l.map (·.name) := by
  obtain ⟨out, h1, h2⟩ := build_exact (E := E) ord hord srt hsrt schemas ms (fun m hm e he => by
    obtain ⟨sch, h⟩ := hk m hm e he
    rw [(schemaMap_iff _ _ _).mpr h]
    rfl)
  refine ⟨out, h1, fun t => ?_⟩
  rw [h2]
  simp only [schemaMap_iff]
  have e : ∀ (a : Name) (l : List FieldColumn), t = newIndexTarget a (l.map (·.name)) ↔
      t.tableName = a ∧ t.columns.map (·.name) = l.map (·.name) := by
    intro a l
    obtain ⟨tn, cs⟩ := t
    simp only [newIndexTarget, IndexTarget.mk.injEq]
    refine and_congr Iff.rfl ⟨fun h => by rw [h]; simp [Function.comp_def], fun h => ?_⟩
    rw [← h]
    simp [Function.comp_def]
  simp only [e]

/-! ### A concrete build -/

/-- A sort that meets the contract of `sort.Slice`. -/
def sortT (l : List IndexTargetTable) : List IndexTargetTable :=
  l.insertionSort (fun a b => less b a = false)

theorem Before.trans {a b c : IndexTarget} (h : Before a b) (h' : Before b c) : Before a c := by
  simp only [Before] at *
  rcases h with h | ⟨h1, h⟩
  · rcases h' with h' | ⟨h1', _⟩
    · exact .inl (List.lt_trans h h')
    · exact .inl (h1' ▸ h)
  · rcases h' with h' | ⟨h1', h'⟩
    · exact .inl (h1 ▸ h')
    · refine .inr ⟨h1.trans h1', ?_⟩
      rcases h with h | ⟨h2, h⟩
      · rcases h' with h' | ⟨h2', _⟩
        · exact .inl (by omega)
        · exact .inl (by omega)
      · rcases h' with h' | ⟨h2', h'⟩
        · exact .inl (by omega)
        · exact .inr ⟨h2.trans h2', List.le_trans h h'⟩

theorem Before.total (a b : IndexTarget) : Before a b ∨ Before b a := by
  simp only [Before]
  by_cases ht : a.tableName = b.tableName
  · rcases Nat.lt_trichotomy a.columns.length b.columns.length with h | h | h
    · exact .inl (.inr ⟨ht, .inl h⟩)
    · rcases List.le_total (a.columns.map (·.name)) (b.columns.map (·.name)) with h' | h'
      · exact .inl (.inr ⟨ht, .inr ⟨h, h'⟩⟩)
      · exact .inr (.inr ⟨ht.symm, .inr ⟨h.symm, h'⟩⟩)
    · exact .inr (.inr ⟨ht.symm, .inl h⟩)
  · rcases List.le_total a.tableName b.tableName with h | h
    · rcases List.le_iff_lt_or_eq.mp h with h | h
      · exact .inl (.inl h)
      · exact absurd h ht
    · rcases List.le_iff_lt_or_eq.mp h with h | h
      · exact .inr (.inl h)
      · exact absurd h.symm ht

/-- The contract assumed of `sort.Slice` can be met. -/
theorem sortT_isSort : IsSort sortT := by
  intro l
  refine ⟨List.perm_insertionSort _ _, ?_⟩
  have ht : Std.Total (fun a b : IndexTargetTable => less b a = false) :=
    ⟨fun a b => by simp only [less_false_iff]; exact Before.total _ _⟩
  have htr : IsTrans IndexTargetTable (fun a b => less b a = false) :=
    ⟨fun a b c h1 h2 => by
      rw [less_false_iff] at h1 h2 ⊢
      exact Before.trans h1 h2⟩
  exact List.pairwise_insertionSort _ l

/-- test data -/
def exSchemas : List TableSchema :=
  [⟨"users".toList, ["id".toList, "name".toList, "email".toList], ["id".toList]⟩,
   ⟨"tasks".toList, ["id".toList, "user_id".toList], ["id".toList]⟩]
/-- test data -/
def exFields : TableFields :=
  [("users".toList, [fc "id" .condition, fc "name" .reference]),
   ("tasks".toList, [fc "user_id" .condition])]

example : build (E := Unit) idOrder sortT exSchemas [.ok exFields] =
    .ok [newIndexTarget "tasks".toList ["user_id".toList],
         newIndexTarget "users".toList ["id".toList, "name".toList]] := by decide +kernel
example : ∀ e ∈ exFields, DistinctNames e.2 := by unfold DistinctNames; decide +kernel

end Verif.Builder
