import Verif.Fields.Det
/-!
# Property C66: suggestions come from the text of the query, and resolution does not crash
-/
namespace Verif.Fields
open Verif.Index Verif.Lib Verif.Builder Verif.Builder.Spec Spec

/-! ## Specification -/

/-- `Inside x s`: the query `x` is `s`, or is nested in it at any depth. -/
inductive Inside (x : Scope) : Scope → Prop where
  | here : Inside x x
  | sub {s y : Scope} : y ∈ s.subScopes → Inside x y → Inside x s
  | field {s y : Scope} : y ∈ s.fieldScopes → Inside x y → Inside x s

/-- The query, or a query nested in it, uses a column called `c` in a place of type `ty`. -/
def UsedSomewhere (s : Scope) (c : Name) (ty : FieldType) : Prop :=
  ∃ x, Inside x s ∧ ∃ f ∈ x.fields, ∃ u ∈ f.columns, IsUse u ∧ u.name = c ∧ u.type = ty

/-- The query, or a query nested in it, has `t` in its FROM. -/
def ReadSomewhere (s : Scope) (t : Name) : Prop := ∃ x, Inside x s ∧ ∃ T ∈ x.tables, T.name = t

/-- Every FROM subquery, at any depth, has its entry in the FROM clause of the query around it. -/
def SubsNamed (s : Scope) : Prop :=
  ∀ x, Inside x s → ∀ y ∈ x.subScopes, ∃ T ∈ x.tables, T.name = y.name

/-! ## Where listed columns come from -/

section
variable (Tab Ment : Name → Prop) (Ty : FieldType → Prop)

/-- A column list whose references are to columns of the same name or to mentioned ones. -/
def ColsGood (cols : List OutputCol) : Prop :=
  ∀ o ∈ cols, ∀ ci ∈ o.refs, Tab ci.tableName ∧ (ci.name = o.name ∨ Ment ci.name)

/-- Mentioned columns only. -/
def ListGood (l : List FieldColumn) : Prop := ∀ c ∈ l, Ment c.name ∧ Ty c.type

/-- Mentioned columns of known tables only. -/
def FieldsGood (m : FieldMap) : Prop := ∀ p ∈ m, Tab p.1 ∧ ListGood Ment Ty p.2

/-- see `ColsGood` -/
def OutGood (m : OutMap) : Prop := ∀ p ∈ m, ColsGood Tab Ment p.2

/-- What a query may say. -/
def TextGood (s : Scope) : Prop := ∀ x, Inside x s → (∀ T ∈ x.tables, Tab T.name) ∧
  ∀ f ∈ x.fields, ∀ u ∈ f.columns, IsUse u → Ment u.name ∧ Ty u.type

variable {Tab Ment Ty}

theorem OutGood.get {m : OutMap} (h : OutGood Tab Ment m) (k : Name) :
    ColsGood Tab Ment ((mapGet k m).getD []) := by
  cases hg : mapGet k m with
  | none => intro o ho; simp at ho
  | some cols => exact h _ (mapGet_mem _ _ _ hg)

theorem OutGood.set {m : OutMap} (h : OutGood Tab Ment m) (k : Name) {cols : List OutputCol}
    (hc : ColsGood Tab Ment cols) : OutGood Tab Ment (mapSet k cols m) := by
  intro p hp
  rcases mem_mapSet _ _ _ _ hp with rfl | hp
  · exact hc
  · exact h p hp

theorem ColsGood.append {a b : List OutputCol} (ha : ColsGood Tab Ment a) (hb : ColsGood Tab Ment b) :
    ColsGood Tab Ment (a ++ b) := by
  intro o ho
  rcases List.mem_append.mp ho with h | h
  · exact ha o h
  · exact hb o h

theorem FieldsGood.get {m : FieldMap} (h : FieldsGood Tab Ment Ty m) (k : Name) :
    ListGood Ment Ty ((mapGet k m).getD []) := by
  cases hg : mapGet k m with
  | none => intro o ho; simp at ho
  | some cols => exact (h _ (mapGet_mem _ _ _ hg)).2

theorem FieldsGood.add {m : FieldMap} (h : FieldsGood Tab Ment Ty m) (t : Name) (c : FieldColumn)
    (ht : Tab t) (hc : Ment c.name ∧ Ty c.type) :
    FieldsGood Tab Ment Ty (addReferencingField t c m) := by
  intro p hp
  rcases mem_mapSet _ _ _ _ hp with rfl | hp
  · refine ⟨ht, fun d hd => ?_⟩
    rcases mem_addToList _ _ _ hd with rfl | hd
    · exact hc
    · exact h.get t d hd
  · exact h p hp

theorem FieldsGood.addInfos {m : FieldMap} (h : FieldsGood Tab Ment Ty m) (ty : FieldType)
    (cis : List ColInfo) (hc : ∀ ci ∈ cis, Tab ci.tableName ∧ Ment ci.name ∧ Ty ty) :
    FieldsGood Tab Ment Ty (addInfos ty cis m) := by
  induction cis generalizing m with
  | nil => exact h
  | cons ci cis ih =>
    have h1 := hc ci (by simp)
    exact ih (h.add _ _ h1.1 h1.2) fun x hx => hc x (by simp [hx])

theorem FieldsGood.addAll {m : FieldMap} (h : FieldsGood Tab Ment Ty m) (t : Name)
    (l : List FieldColumn) (ht : Tab t) (hl : ListGood Ment Ty l) :
    FieldsGood Tab Ment Ty (l.foldl (fun m c => addReferencingField t c m) m) := by
  induction l generalizing m with
  | nil => exact h
  | cons c cs ih => exact ih (h.add t c ht (hl c (by simp))) fun x hx => hl x (by simp [hx])

theorem FieldsGood.addFields {m new : FieldMap} (h : FieldsGood Tab Ment Ty m)
    (hn : FieldsGood Tab Ment Ty new) (ks : List Name) :
    FieldsGood Tab Ment Ty (addReferencingFields ks new m) := by
  induction ks generalizing m with
  | nil => exact h
  | cons k ks ih =>
    simp only [addReferencingFields, List.foldl_cons]
    apply ih
    cases hg : mapGet k new with
    | none => exact h
    | some l =>
      have := hn _ (mapGet_mem _ _ _ hg)
      exact h.addAll k l this.1 this.2

theorem appendCol_good {m : OutMap} (h : OutGood Tab Ment m) (t c : Name) (ht : Tab t) :
    OutGood Tab Ment (appendCol t c m) := by
  apply h.set
  apply (h.get t).append
  intro o ho ci hci
  simp only [List.mem_singleton] at ho
  subst ho
  simp only [List.mem_singleton] at hci
  subst hci
  exact ⟨ht, .inl rfl⟩

theorem buildReferencingColumns_good (db : Name → Option TableSchema) (tables : List Table)
    (ht : ∀ T ∈ tables, Tab T.name) : OutGood Tab Ment (buildReferencingColumns db tables) := by
  unfold buildReferencingColumns
  suffices H : ∀ (ts : List Table) (m : OutMap), (∀ T ∈ ts, Tab T.name) → OutGood Tab Ment m →
      OutGood Tab Ment (ts.foldl (fun res t =>
        match db t.name with
        | some sch => sch.columns.foldl (fun res c => appendCol t.name c res) res
        | none => res) m) from H tables [] ht (by intro p hp; simp at hp)
  intro ts
  induction ts with
  | nil => intro m _ h; exact h
  | cons T ts ih =>
    intro m hT h
    simp only [List.foldl_cons]
    apply ih _ (fun T hT' => hT T (by simp [hT']))
    split
    · next sch _ =>
      generalize sch.columns = cs
      induction cs generalizing m with
      | nil => exact h
      | cons c cs ih2 => exact ih2 _ (appendCol_good h _ _ (hT T (by simp)))
    · exact h

theorem getVisibleColumns_good {i : Info} (h : OutGood Tab Ment i.internalCols) :
    OutGood Tab Ment (getVisibleColumns i) := by
  intro p hp
  simp only [getVisibleColumns, List.mem_filterMap] at hp
  obtain ⟨q, _, hq⟩ := hp
  obtain ⟨cols, hc, rfl⟩ := Option.map_eq_some_iff.mp hq
  exact h (q.2, cols) (mapGet_mem _ _ _ hc)

theorem assign_good {a b : OutMap} (ha : OutGood Tab Ment a) (hb : OutGood Tab Ment b) :
    OutGood Tab Ment (assign a b) := by
  unfold assign
  induction b generalizing a with
  | nil => exact ha
  | cons p ps ih =>
    exact ih (ha.set p.1 (hb p (by simp))) fun q hq => hb q (by simp [hq])

theorem getTableColsFromAsName_good {i : Info} {ext : OutMap} (hi : OutGood Tab Ment i.internalCols)
    (he : OutGood Tab Ment ext) {t : Name} {cols : List OutputCol}
    (h : getTableColsFromAsName i ext t = .ok cols) : ColsGood Tab Ment cols := by
  simp only [getTableColsFromAsName] at h
  split at h
  · simp only [getTableColsFromName] at h
    split at h
    · next hg => cases h; exact hi _ (mapGet_mem _ _ _ hg)
    · split at h
      · next hg => cases h; exact he _ (mapGet_mem _ _ _ hg)
      · cases h
  · cases h

theorem getColumnInfosFrom_good {ks : List Name} {m : OutMap} (hm : OutGood Tab Ment m) {c : Name}
    {cis : List ColInfo} (h : getColumnInfosFrom ks m c = some cis) :
    ∀ ci ∈ cis, Tab ci.tableName ∧ (ci.name = c ∨ Ment ci.name) := by
  obtain ⟨k, _, hk⟩ := List.exists_of_findSome?_eq_some h
  obtain ⟨o, ho, rfl⟩ := Option.map_eq_some_iff.mp hk
  have hn : c = o.name := by simpa using List.find?_some ho
  intro ci hci
  rw [hn]
  exact hm.get k o (List.mem_of_find?_eq_some ho) ci hci

theorem getColumnReference_good {ord : KeyOrder} {path : List Nat} {i : Info} {ext : OutMap}
    (hi : OutGood Tab Ment i.internalCols) (he : OutGood Tab Ment ext) {c : FieldColumn}
    {cis : List ColInfo} (hu : IsUse c → Ment c.name ∧ Ty c.type)
    (h : getColumnReferenceColumnInfos ord path i ext c = .ok cis) :
    ∀ ci ∈ cis, Tab ci.tableName ∧ Ment ci.name ∧ Ty c.type := by
  simp only [getColumnReferenceColumnInfos] at h
  split at h
  · cases h; intro ci hci; simp at hci
  · next h1 =>
    split at h
    · cases h; intro ci hci; simp at hci
    · next h2 =>
      obtain ⟨hm, hty⟩ := hu ⟨h1, h2⟩
      have key : ∀ ci ∈ cis, Tab ci.tableName ∧ (ci.name = c.name ∨ Ment ci.name) := by
        split at h
        · simp only [getColumnInfos] at h
          split at h
          · next hc => cases h; exact getColumnInfosFrom_good hi hc
          · split at h
            · next hc => cases h; exact getColumnInfosFrom_good he hc
            · split at h
              · cases h; intro ci hci; simp at hci
              · cases h
        · simp only [getReferencingColumnInfos] at h
          split at h
          · cases h
          · next cols hc =>
            split at h
            · next fc hf =>
              cases h
              have hn : c.name = fc.name := by simpa using List.find?_some hf
              rw [hn]
              exact getTableColsFromAsName_good hi he hc fc (List.mem_of_find?_eq_some hf)
            · cases h
      intro ci hci
      obtain ⟨a, b⟩ := key ci hci
      refine ⟨a, ?_, hty⟩
      rcases b with b | b
      · rw [b]; exact hm
      · exact b

theorem columnLoop_good {ord : KeyOrder} {i : Info} {ext : OutMap}
    (hi : OutGood Tab Ment i.internalCols) (he : OutGood Tab Ment ext) (path : List Nat) (k : Nat)
    (cs : List FieldColumn) (hu : ∀ c ∈ cs, IsUse c → Ment c.name ∧ Ty c.type) (m : FieldMap)
    (stars : List Name) (hm : FieldsGood Tab Ment Ty m) {infos : List ColInfo} {m' : FieldMap}
    {stars' : List Name} (h : columnLoop ord i ext path k cs m stars = .ok (infos, m', stars')) :
    (∀ ci ∈ infos, Tab ci.tableName ∧ Ment ci.name) ∧ FieldsGood Tab Ment Ty m' := by
  induction cs generalizing k m stars infos m' stars' with
  | nil =>
    simp only [columnLoop, Except.ok.injEq, Prod.mk.injEq] at h
    obtain ⟨rfl, rfl, _⟩ := h
    exact ⟨by simp, hm⟩
  | cons c cs ih =>
    simp only [columnLoop] at h
    split at h
    · cases h
    · next cis hc =>
      have g := getColumnReference_good hi he (hu c (by simp)) hc
      split at h
      · cases h
      · next rest m1 s1 hr =>
        cases h
        obtain ⟨a, b⟩ := ih (k + 1) (fun c hc => hu c (by simp [hc])) _ _ (hm.addInfos _ _ g) hr
        refine ⟨fun ci hci => ?_, b⟩
        rcases List.mem_append.mp hci with hci | hci
        · exact ⟨(g ci hci).1, (g ci hci).2.1⟩
        · exact a ci hci

theorem fieldLoop_good {ord : KeyOrder} {i : Info} {ext : OutMap}
    (hi : OutGood Tab Ment i.internalCols) (he : OutGood Tab Ment ext) (path : List Nat) (k : Nat)
    (fs : List Field) (hu : ∀ f ∈ fs, ∀ c ∈ f.columns, IsUse c → Ment c.name ∧ Ty c.type)
    (m : FieldMap) (stars : List Name) (hm : FieldsGood Tab Ment Ty m) {outs : List OutputCol}
    {m' : FieldMap} {stars' : List Name}
    (h : fieldLoop ord i ext path k fs m stars = .ok (outs, m', stars')) :
    ColsGood Tab Ment outs ∧ FieldsGood Tab Ment Ty m' := by
  induction fs generalizing k m stars outs m' stars' with
  | nil =>
    simp only [fieldLoop, Except.ok.injEq, Prod.mk.injEq] at h
    obtain ⟨rfl, rfl, _⟩ := h
    exact ⟨by intro o ho; simp at ho, hm⟩
  | cons f fs ih =>
    simp only [fieldLoop] at h
    split at h
    · cases h
    · next infos m1 s1 hc =>
      obtain ⟨a, b⟩ := columnLoop_good hi he _ _ _ (hu f (by simp)) _ _ hm hc
      split at h
      · cases h
      · next outs1 m2 s2 hr =>
        cases h
        obtain ⟨c, d⟩ := ih (k + 1) (fun f hf => hu f (by simp [hf])) _ _ b hr
        refine ⟨ColsGood.append ?_ c, d⟩
        intro o ho
        split at ho
        · simp only [List.mem_singleton] at ho
          subst ho
          intro ci hci
          exact ⟨(a ci hci).1, .inr (a ci hci).2⟩
        · simp at ho

theorem starLoop_good {ord : KeyOrder} {i : Info} {ext : OutMap}
    (hi : OutGood Tab Ment i.internalCols) (he : OutGood Tab Ment ext) (path : List Nat) (k : Nat)
    (ts : List Name) {res : List OutputCol} (h : starLoop ord i ext path k ts = .ok res) :
    ColsGood Tab Ment res := by
  induction ts generalizing k res with
  | nil =>
    simp only [starLoop, Except.ok.injEq] at h
    subst h
    intro o ho; simp at ho
  | cons t ts ih =>
    simp only [starLoop] at h
    split at h
    · split at h
      · cases h
      · next rest hr =>
        cases h
        refine ColsGood.append (fun o ho => ?_) (ih _ hr)
        simp only [List.mem_flatMap] at ho
        obtain ⟨n, _, ho⟩ := ho
        exact hi.get n o ho
    · split at h
      · cases h
      · next cols hc =>
        split at h
        · cases h
        · next rest hr =>
          cases h
          exact (getTableColsFromAsName_good hi he hc).append (ih _ hr)

theorem listStar_good {ord : KeyOrder} {i : Info} {ext : OutMap}
    (hi : OutGood Tab Ment i.internalCols) (he : OutGood Tab Ment ext) (path : List Nat)
    (stars : List Name) (found : List OutputCol) {res : List OutputCol}
    (h : listStar ord path i ext stars found = .ok res) : ColsGood Tab Ment res := by
  simp only [listStar] at h
  split at h
  · cases h
  · next r hr =>
    cases h
    intro o ho
    exact starLoop_good hi he _ _ _ hr o (List.mem_of_mem_filter ((uniqBy_sublist _ _).subset ho))

mutual

theorem calcRefs_good {ord : KeyOrder} {db : Name → Option TableSchema} :
    (s : Scope) → TextGood Tab Ment Ty s → ∀ ⦃path : List Nat⦄ ⦃ext : OutMap⦄
    ⦃outs : List OutputCol⦄ ⦃m : FieldMap⦄, OutGood Tab Ment ext →
    calcRefs ord db path ext s = .ok (outs, m) →
    ColsGood Tab Ment outs ∧ FieldsGood Tab Ment Ty m
  | .mk name fields fieldScopes tables subScopes => by
    intro ht path ext outs m he h
    simp only [calcRefs] at h
    have hme := ht _ .here
    split at h
    · cases h
    · next i1 hi1 =>
      obtain ⟨g1, g2⟩ := calcSubs_good subScopes (fun y hy x hx => ht x (.sub hy hx)) he
        (i := newInfo db tables ext) (buildReferencingColumns_good db tables hme.1)
        (by intro p hp; simp [newInfo] at hp) hi1
      split at h
      · cases h
      · next i2 hi2 =>
        obtain ⟨k1, k2⟩ := calcFieldScopes_good fieldScopes (fun y hy x hx => ht x (.field hy hx))
          (getVisibleColumns_good g1) g1 g2 hi2
        split at h
        · cases h
        · next outs1 m1 stars hf =>
          obtain ⟨f1, f2⟩ := fieldLoop_good k1 he _ _ _ hme.2 _ _ k2 hf
          split at h
          · cases h
          · next fs hs =>
            cases h
            exact ⟨f1.append (listStar_good k1 he _ _ _ hs), f2⟩

theorem calcSubs_good {ord : KeyOrder} {db : Name → Option TableSchema} :
    (ss : List Scope) → (∀ y ∈ ss, TextGood Tab Ment Ty y) → ∀ ⦃path : List Nat⦄ ⦃k : Nat⦄
    ⦃ext : OutMap⦄ ⦃tables : List Table⦄ ⦃i j : Info⦄, OutGood Tab Ment ext →
    OutGood Tab Ment i.internalCols → FieldsGood Tab Ment Ty i.refFields →
    calcSubs ord db path k ext tables ss i = .ok j →
    OutGood Tab Ment j.internalCols ∧ FieldsGood Tab Ment Ty j.refFields
  | [] => by
    intro _ path k ext tables i j _ h1 h2 h
    simp only [calcSubs, Except.ok.injEq] at h
    subst h
    exact ⟨h1, h2⟩
  | s :: ss => by
    intro ht path k ext tables i j he h1 h2 h
    simp only [calcSubs] at h
    split at h
    · cases h
    · next t _ =>
      split at h
      · cases h
      · next cols new hc =>
        have he' : OutGood Tab Ment (if t.isLateral then assign ext (getVisibleColumns i) else ext) := by
          split
          · exact assign_good he (getVisibleColumns_good h1)
          · exact he
        obtain ⟨a, b⟩ := calcRefs_good s (ht s (by simp)) he' hc
        exact calcSubs_good ss (fun y hy => ht y (by simp [hy])) he (h1.set _ a)
          (h2.addFields b _) h

theorem calcFieldScopes_good {ord : KeyOrder} {db : Name → Option TableSchema} :
    (ss : List Scope) → (∀ y ∈ ss, TextGood Tab Ment Ty y) → ∀ ⦃path : List Nat⦄ ⦃k : Nat⦄
    ⦃visible : OutMap⦄ ⦃i j : Info⦄, OutGood Tab Ment visible →
    OutGood Tab Ment i.internalCols → FieldsGood Tab Ment Ty i.refFields →
    calcFieldScopes ord db path k visible ss i = .ok j →
    OutGood Tab Ment j.internalCols ∧ FieldsGood Tab Ment Ty j.refFields
  | [] => by
    intro _ path k visible i j _ h1 h2 h
    simp only [calcFieldScopes, Except.ok.injEq] at h
    subst h
    exact ⟨h1, h2⟩
  | s :: ss => by
    intro ht path k visible i j he h1 h2 h
    simp only [calcFieldScopes] at h
    split at h
    · cases h
    · next cols new hc =>
      obtain ⟨a, b⟩ := calcRefs_good s (ht s (by simp)) he hc
      exact calcFieldScopes_good ss (fun y hy => ht y (by simp [hy])) he (h1.set _ a)
        (h2.addFields b _) h

end

end

/-- **C66.** Every column listed for a table is used by that name somewhere in the query text, and the
type under which it is listed is that of some use in the query; every table listed is in some FROM. -/
theorem C66_listed_is_mentioned (ord : KeyOrder) (db : Name → Option TableSchema) (path : List Nat)
    (s : Scope) (m : FieldMap) (h : buildTableFields ord db path s = .ok m) :
    ∀ e ∈ m, ReadSomewhere s e.1 ∧ ∀ c ∈ e.2, (∃ ty, UsedSomewhere s c.name ty) ∧
      ∃ n, UsedSomewhere s n c.type := by
  simp only [buildTableFields] at h
  split at h
  · cases h
  · next outs m' hc =>
    cases h
    have ht : TextGood (ReadSomewhere s) (fun n => ∃ ty, UsedSomewhere s n ty)
        (fun ty => ∃ n, UsedSomewhere s n ty) s := by
      intro x hx
      refine ⟨fun T hT => ⟨x, hx, T, hT, rfl⟩, fun f hf u hu hi => ?_⟩
      exact ⟨⟨u.type, x, hx, f, hf, u, hu, hi, rfl, rfl⟩, ⟨u.name, x, hx, f, hf, u, hu, hi, rfl, rfl⟩⟩
    exact (calcRefs_good s ht (by intro p hp; simp at hp) hc).2

/-! ## Resolution does not crash -/

theorem getTableColsFromAsName_error {i : Info} {ext : OutMap} (t : Name) :
    getTableColsFromAsName i ext t ≠ .error .panic := by
  simp only [getTableColsFromAsName, getTableColsFromName]
  repeat' split
  all_goals simp

theorem getColumnReference_error {ord : KeyOrder} {i : Info} {ext : OutMap} (path : List Nat)
    (c : FieldColumn) : getColumnReferenceColumnInfos ord path i ext c ≠ .error .panic := by
  simp only [getColumnReferenceColumnInfos, getColumnInfos, getReferencingColumnInfos]
  split
  · simp
  · split
    · simp
    · split
      · repeat' split
        all_goals simp
      · split
        · next e he =>
          intro h
          cases h
          exact getTableColsFromAsName_error _ he
        · split <;> simp

theorem columnLoop_error {ord : KeyOrder} {i : Info} {ext : OutMap} (path : List Nat) (k : Nat)
    (cs : List FieldColumn) (m : FieldMap) (stars : List Name) :
    columnLoop ord i ext path k cs m stars ≠ .error .panic := by
  induction cs generalizing k m stars with
  | nil => simp [columnLoop]
  | cons c cs ih =>
    simp only [columnLoop]
    split
    · next e hc =>
      intro h
      cases h
      exact getColumnReference_error _ _ hc
    · split
      · next e hr => intro h; cases h; exact ih _ _ _ hr
      · intro h; cases h

theorem fieldLoop_error {ord : KeyOrder} {i : Info} {ext : OutMap} (path : List Nat) (k : Nat)
    (fs : List Field) (m : FieldMap) (stars : List Name) :
    fieldLoop ord i ext path k fs m stars ≠ .error .panic := by
  induction fs generalizing k m stars with
  | nil => simp [fieldLoop]
  | cons f fs ih =>
    simp only [fieldLoop]
    split
    · next e hc => intro h; cases h; exact columnLoop_error _ _ _ _ _ hc
    · split
      · next e hr => intro h; cases h; exact ih _ _ _ hr
      · intro h; cases h

theorem starLoop_error {ord : KeyOrder} {i : Info} {ext : OutMap} (path : List Nat) (k : Nat)
    (ts : List Name) : starLoop ord i ext path k ts ≠ .error .panic := by
  induction ts generalizing k with
  | nil => simp [starLoop]
  | cons t ts ih =>
    simp only [starLoop]
    split
    · split
      · next e hr => intro h; cases h; exact ih _ hr
      · intro h; cases h
    · split
      · next e hc =>
        intro h
        cases h
        exact getTableColsFromAsName_error _ hc
      · split
        · next e hr => intro h; cases h; exact ih _ hr
        · intro h; cases h

mutual

theorem calcRefs_panic {ord : KeyOrder} {db : Name → Option TableSchema} :
    (s : Scope) → ∀ ⦃path : List Nat⦄ ⦃ext : OutMap⦄, calcRefs ord db path ext s = .error .panic →
    ∃ x, Inside x s ∧ ∃ y ∈ x.subScopes, ∀ T ∈ x.tables, T.name ≠ y.name
  | .mk name fields fieldScopes tables subScopes => by
    intro path ext h
    simp only [calcRefs] at h
    split at h
    · next e hc =>
      cases h
      rcases calcSubs_panic subScopes hc with ⟨y, hy, hn⟩ | ⟨y, hy, x, hx, r⟩
      · exact ⟨_, .here, y, hy, hn⟩
      · exact ⟨x, .sub hy hx, r⟩
    · split at h
      · next e hc =>
        cases h
        obtain ⟨y, hy, x, hx, r⟩ := calcFieldScopes_panic fieldScopes hc
        exact ⟨x, .field hy hx, r⟩
      · split at h
        · next e hc => cases h; exact absurd hc (fieldLoop_error _ _ _ _ _)
        · split at h
          · next e hc =>
            cases h
            simp only [listStar] at hc
            split at hc
            · next e hs => cases hc; exact absurd hs (starLoop_error _ _ _)
            · cases hc
          · cases h

theorem calcSubs_panic {ord : KeyOrder} {db : Name → Option TableSchema} :
    (ss : List Scope) → ∀ ⦃path : List Nat⦄ ⦃k : Nat⦄ ⦃ext : OutMap⦄ ⦃tables : List Table⦄ ⦃i : Info⦄,
    calcSubs ord db path k ext tables ss i = .error .panic →
    (∃ y ∈ ss, ∀ T ∈ tables, T.name ≠ y.name) ∨
    ∃ z ∈ ss, ∃ x, Inside x z ∧ ∃ y ∈ x.subScopes, ∀ T ∈ x.tables, T.name ≠ y.name
  | [] => by
    intro path k ext tables i h
    simp [calcSubs] at h
  | s :: ss => by
    intro path k ext tables i h
    simp only [calcSubs] at h
    split at h
    · next hf =>
      rw [List.find?_eq_none] at hf
      exact .inl ⟨s, by simp, fun T hT e => hf T (List.mem_reverse.mpr hT) (by simpa using e)⟩
    · split at h
      · next e hc =>
        cases h
        exact .inr ⟨s, by simp, calcRefs_panic s hc⟩
      · rcases calcSubs_panic ss h with ⟨y, hy, hn⟩ | ⟨z, hz, r⟩
        · exact .inl ⟨y, by simp [hy], hn⟩
        · exact .inr ⟨z, by simp [hz], r⟩

theorem calcFieldScopes_panic {ord : KeyOrder} {db : Name → Option TableSchema} :
    (ss : List Scope) → ∀ ⦃path : List Nat⦄ ⦃k : Nat⦄ ⦃visible : OutMap⦄ ⦃i : Info⦄,
    calcFieldScopes ord db path k visible ss i = .error .panic →
    ∃ z ∈ ss, ∃ x, Inside x z ∧ ∃ y ∈ x.subScopes, ∀ T ∈ x.tables, T.name ≠ y.name
  | [] => by
    intro path k visible i h
    simp [calcFieldScopes] at h
  | s :: ss => by
    intro path k visible i h
    simp only [calcFieldScopes] at h
    split at h
    · next e hc =>
      cases h
      exact ⟨s, by simp, calcRefs_panic s hc⟩
    · obtain ⟨z, hz, r⟩ := calcFieldScopes_panic ss h
      exact ⟨z, by simp [hz], r⟩

end

/-- **C66.** Name resolution ends with a result or an error message, never a crash, when the scope tree
gives every FROM subquery its entry in FROM. -/
theorem C66_no_crash (ord : KeyOrder) (db : Name → Option TableSchema) (path : List Nat) (s : Scope)
    (hs : SubsNamed s) : buildTableFields ord db path s ≠ .error .panic := by
  simp only [buildTableFields]
  split
  · next e hc =>
    intro h
    cases h
    obtain ⟨x, hx, y, hy, hn⟩ := calcRefs_panic s hc
    obtain ⟨T, hT, e⟩ := hs x hx y hy
    exact hn T hT e
  · intro h; cases h

/-- The condition is needed: one FROM subquery without entry is a nil dereference. -/
theorem C66_unnamed_sub_crashes (ord : KeyOrder) (db : Name → Option TableSchema) (path : List Nat)
    (n : Name) (fields : List Field) (fs : List Scope) (tables : List Table) (y : Scope)
    (ss : List Scope) (h : ∀ T ∈ tables, T.name ≠ y.name) :
    buildTableFields ord db path (.mk n fields fs tables (y :: ss)) = .error .panic := by
  have : tables.reverse.find? (·.name = y.name) = none := by
    rw [List.find?_eq_none]
    intro T hT
    simpa using h T (List.mem_reverse.mp hT)
  simp only [buildTableFields, calcRefs, calcSubs, this]

end Verif.Fields
