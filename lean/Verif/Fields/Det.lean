import Verif.Fields.Flat
import Mathlib.Data.List.Forall2
/-!
# Property C15 for whole queries: independence of map iteration order
-/
namespace Verif.Fields
open Verif.Index Verif.Lib Verif.Builder Verif.Builder.Spec Spec

/-- What column `x` of a column list stands for. -/
def look (cols : List OutputCol) (x : Name) : Option (List ColInfo) :=
  (cols.find? (fun fc => x = fc.name)).map (·.refs)

/-! ## Unambiguous queries (specification) -/

/-- No two tables of `m` give different meanings to the name `x`. -/
def OneMeaning (m : OutMap) (x : Name) : Prop :=
  ∀ k ∈ keys m, ∀ k' ∈ keys m, ∀ r r', look ((mapGet k m).getD []) x = some r →
    look ((mapGet k' m).getD []) x = some r' → r = r'

/-- The column lists a star `t.*` (or `*` for an empty `t`) stands for. -/
def starLists (i : Info) (ext : OutMap) (t : Name) : List (List OutputCol) :=
  if t = [] then (keys i.internalCols).map fun k => (mapGet k i.internalCols).getD []
  else match getTableColsFromAsName i ext t with
    | .ok cols => [cols]
    | .error _ => []

/-- No two column lists selected by stars give different meanings to a name. -/
def StarsAgree (i : Info) (ext : OutMap) (fields : List Field) : Prop :=
  ∀ f ∈ fields, ∀ c ∈ f.columns, c.type = .star → ∀ f' ∈ fields, ∀ c' ∈ f'.columns, c'.type = .star →
    ∀ l ∈ starLists i ext c.table, ∀ l' ∈ starLists i ext c'.table, ∀ x r r',
      look l x = some r → look l' x = some r' → r = r'

/-- Every unqualified column of `fields` has one meaning: among the FROM items, or, if none of them
has it, among what is visible from outside. -/
def NamesAgree (i : Info) (ext : OutMap) (fields : List Field) : Prop :=
  ∀ f ∈ fields, ∀ c ∈ f.columns, IsUse c → c.table = [] → OneMeaning i.internalCols c.name ∧
    ((∀ k ∈ keys i.internalCols, look ((mapGet k i.internalCols).getD []) c.name = none) →
      OneMeaning ext c.name)

mutual

/-- At every depth, unqualified columns have one meaning, and so have the columns returned by stars
(except at the root, whose result columns nobody refers to). -/
def Unambiguous (ord : KeyOrder) (db : Name → Option TableSchema) (root : Bool) :
    List Nat → OutMap → Scope → Prop
  | path, ext, .mk _ fields fieldScopes tables subScopes =>
    UnambiguousSub ord db path 0 ext tables subScopes (newInfo db tables ext) ∧
    ∀ i, calcSubs ord db path 0 ext tables subScopes (newInfo db tables ext) = .ok i →
      UnambiguousField ord db path 0 (getVisibleColumns i) fieldScopes i ∧
      ∀ j, calcFieldScopes ord db path 0 (getVisibleColumns i) fieldScopes i = .ok j →
        NamesAgree j ext fields ∧ (root = false → StarsAgree j ext fields)

/-- see `Unambiguous` -/
def UnambiguousSub (ord : KeyOrder) (db : Name → Option TableSchema) :
    List Nat → Nat → OutMap → List Table → List Scope → Info → Prop
  | _, _, _, _, [], _ => True
  | path, k, ext, tables, s :: ss, i =>
    ∀ t, tables.reverse.find? (·.name = s.name) = some t →
      Unambiguous ord db false (path ++ [0, k])
        (if t.isLateral then assign ext (getVisibleColumns i) else ext) s ∧
      ∀ cols new, calcRefs ord db (path ++ [0, k])
          (if t.isLateral then assign ext (getVisibleColumns i) else ext) s = .ok (cols, new) →
        UnambiguousSub ord db path (k + 1) ext tables ss
          (addSubqueryInfo (ord (path ++ [4, k]) (keys new)) s.name t.asOrName cols new i)

/-- see `Unambiguous` -/
def UnambiguousField (ord : KeyOrder) (db : Name → Option TableSchema) :
    List Nat → Nat → OutMap → List Scope → Info → Prop
  | _, _, _, [], _ => True
  | path, k, visible, s :: ss, i =>
    Unambiguous ord db false (path ++ [1, k]) visible s ∧
    ∀ cols new, calcRefs ord db (path ++ [1, k]) visible s = .ok (cols, new) →
      UnambiguousField ord db path (k + 1) visible ss
        (addSubqueryInfo (ord (path ++ [5, k]) (keys new)) s.name s.name cols new i)

end

/-! ## Simulation -/

/-- Both fail, or both succeed with related results. -/
def Sim {E A B : Type} (R : A → B → Prop) : Except E A → Except E B → Prop
  | .ok a, .ok b => R a b
  | .error _, .error _ => True
  | _, _ => False

/-- Column lists with the same meaning of every name. -/
def ColsEq (l l' : List OutputCol) : Prop := ∀ x, look l x = look l' x

/-- Output maps equal up to `ColsEq`. -/
def OutEq (m m' : OutMap) : Prop := List.Forall₂ (fun p q => p.1 = q.1 ∧ ColsEq p.2 q.2) m m'

/-- Field maps equal as maps. -/
def MapEq (m m' : FieldMap) : Prop :=
  (keys m).Nodup ∧ (keys m').Nodup ∧ (∀ k, mapGet k m = mapGet k m') ∧ ∀ p ∈ m, p.2 ≠ []

/-- Scope states equal up to the above. -/
structure InfoEq (i i' : Info) : Prop where
  cols : OutEq i.internalCols i'.internalCols
  as : i.asToName = i'.asToName
  subq : i.subqueryAsNames = i'.subqueryAsNames
  fields : MapEq i.refFields i'.refFields

theorem MapEq.perm {m m' : FieldMap} (h : MapEq m m') : m.Perm m' := by
  obtain ⟨h1, h2, h3, _⟩ := h
  have hm : ∀ (m : FieldMap), (keys m).Nodup → m.Nodup := fun m h => List.Nodup.of_map _ h
  rw [List.perm_ext_iff_of_nodup (hm _ h1) (hm _ h2)]
  intro p
  obtain ⟨k, v⟩ := p
  constructor
  · intro h; exact mapGet_mem _ _ _ ((h3 k).symm.trans (mem_mapGet _ _ _ h1 h))
  · intro h; exact mapGet_mem _ _ _ ((h3 k).trans (mem_mapGet _ _ _ h2 h))

theorem OutEq.keys {m m' : OutMap} (h : OutEq m m') : keys m = keys m' := by
  induction h with
  | nil => rfl
  | cons hab _ ih => simp only [Fields.keys, List.map_cons, hab.1] at ih ⊢; rw [ih]

theorem OutEq.refl (m : OutMap) : OutEq m m := by
  induction m with
  | nil => exact .nil
  | cons p m ih => exact .cons ⟨rfl, fun _ => rfl⟩ ih

theorem OutEq.get {m m' : OutMap} (h : OutEq m m') (k : Name) :
    (mapGet k m = none ∧ mapGet k m' = none) ∨
      ∃ l l', mapGet k m = some l ∧ mapGet k m' = some l' ∧ ColsEq l l' := by
  induction h with
  | nil => left; simp [mapGet]
  | @cons a b _ _ hab _ ih =>
    obtain ⟨ka, va⟩ := a
    obtain ⟨kb, vb⟩ := b
    obtain ⟨rfl, hc⟩ := hab
    simp only [mapGet]
    by_cases e : k = ka
    · simp only [e, if_true]; exact .inr ⟨va, vb, rfl, rfl, hc⟩
    · simp only [e, if_false]; exact ih

theorem OutEq.look {m m' : OutMap} (h : OutEq m m') (k x : Name) :
    Fields.look ((mapGet k m).getD []) x = Fields.look ((mapGet k m').getD []) x := by
  rcases h.get k with ⟨h1, h2⟩ | ⟨l, l', h1, h2, hc⟩
  · simp [h1, h2]
  · simp only [h1, h2, Option.getD_some]; exact hc x

theorem OutEq.set {m m' : OutMap} (h : OutEq m m') (k : Name) {l l' : List OutputCol}
    (hl : ColsEq l l') : OutEq (mapSet k l m) (mapSet k l' m') := by
  induction h with
  | nil => exact .cons ⟨rfl, hl⟩ .nil
  | @cons a b _ _ hab hr ih =>
    obtain ⟨ka, va⟩ := a
    obtain ⟨kb, vb⟩ := b
    obtain ⟨rfl, hc⟩ := hab
    simp only [mapSet]
    by_cases e : k = ka
    · simp only [e, if_true]; exact .cons ⟨rfl, hl⟩ hr
    · simp only [e, if_false]; exact .cons ⟨rfl, hc⟩ ih

theorem assign_eq {a a' b b' : OutMap} (ha : OutEq a a') (hb : OutEq b b') :
    OutEq (assign a b) (assign a' b') := by
  unfold assign
  induction hb generalizing a a' with
  | nil => exact ha
  | @cons p q _ _ hpq _ ih =>
    simp only [List.foldl_cons]
    rw [hpq.1]
    exact ih (ha.set _ hpq.2)

theorem getVisibleColumns_eq {i i' : Info} (h : InfoEq i i') :
    OutEq (getVisibleColumns i) (getVisibleColumns i') := by
  simp only [getVisibleColumns, ← h.as]
  induction i.asToName with
  | nil => exact .nil
  | cons p ps ih =>
    simp only [List.filterMap_cons]
    rcases h.cols.get p.2 with ⟨h1, h2⟩ | ⟨l, l', h1, h2, hc⟩
    · simp only [h1, h2, Option.map_none]; exact ih
    · simp only [h1, h2, Option.map_some]; exact .cons ⟨rfl, hc⟩ ih

theorem newInfo_eq (db : Name → Option TableSchema) (tables : List Table) {ext ext' : OutMap}
    (h : OutEq ext ext') : InfoEq (newInfo db tables ext) (newInfo db tables ext') :=
  ⟨OutEq.refl _, by simp only [newInfo, h.keys], by simp only [newInfo, h.keys],
    ⟨by simp [newInfo, keys], by simp [newInfo, keys], fun _ => rfl, by simp [newInfo]⟩⟩

theorem addReferencingField_get (t : Name) (c : FieldColumn) (m : FieldMap) (k : Name) :
    mapGet k (addReferencingField t c m) =
      if k = t then some (addToList c ((mapGet t m).getD [])) else mapGet k m := by
  simp [addReferencingField, mapGet_mapSet]

theorem MapEq.add {m m' : FieldMap} (h : MapEq m m') (t : Name) (c : FieldColumn) :
    MapEq (addReferencingField t c m) (addReferencingField t c m') := by
  refine ⟨keys_mapSet_nodup _ _ _ h.1, keys_mapSet_nodup _ _ _ h.2.1, ?_, ?_⟩
  · intro k; simp only [addReferencingField_get, h.2.2.1]
  · intro p hp
    rcases mem_mapSet _ _ _ _ hp with rfl | hp
    · exact addToList_ne_nil _ _
    · exact h.2.2.2 p hp

theorem MapEq.addInfos {m m' : FieldMap} (h : MapEq m m') (ty : FieldType) (cis : List ColInfo) :
    MapEq (addInfos ty cis m) (addInfos ty cis m') := by
  unfold Fields.addInfos
  induction cis generalizing m m' with
  | nil => exact h
  | cons c cs ih => exact ih (h.add _ _)

theorem foldl_add_get (t : Name) (l : List FieldColumn) (m : FieldMap) (k : Name) :
    mapGet k (l.foldl (fun m c => addReferencingField t c m) m) =
      if k = t ∧ l ≠ [] then some (l.foldl (fun acc c => addToList c acc) ((mapGet t m).getD []))
      else mapGet k m := by
  induction l generalizing m with
  | nil => simp
  | cons c cs ih =>
    simp only [List.foldl_cons, ih, addReferencingField_get]
    by_cases hk : k = t
    · subst hk
      by_cases hcs : cs = []
      · simp [hcs]
      · simp [hcs]
    · simp [hk]

theorem addReferencingFields_get (ks : List Name) (hks : ks.Nodup) (new m : FieldMap) (k : Name) :
    mapGet k (addReferencingFields ks new m) =
      if k ∈ ks ∧ (mapGet k new).getD [] ≠ [] then
        some (((mapGet k new).getD []).foldl (fun acc c => addToList c acc) ((mapGet k m).getD []))
      else mapGet k m := by
  unfold addReferencingFields
  induction ks generalizing m with
  | nil => simp
  | cons t ts ih =>
    rw [List.nodup_cons] at hks
    simp only [List.foldl_cons, ih hks.2, foldl_add_get, List.mem_cons]
    by_cases hk : k = t
    · subst hk
      by_cases hl : (mapGet k new).getD [] = []
      · simp [hl]
      · simp [hks.1, hl]
    · simp [hk]

theorem addReferencingFields_nodup (ks : List Name) (new m : FieldMap) (h : (keys m).Nodup)
    (hne : ∀ p ∈ m, p.2 ≠ []) : (keys (addReferencingFields ks new m)).Nodup ∧
      ∀ p ∈ addReferencingFields ks new m, p.2 ≠ [] := by
  unfold addReferencingFields
  induction ks generalizing m with
  | nil => exact ⟨h, hne⟩
  | cons t ts ih =>
    simp only [List.foldl_cons]
    have : ∀ (l : List FieldColumn) (m : FieldMap), (keys m).Nodup → (∀ p ∈ m, p.2 ≠ []) →
        (keys (l.foldl (fun m c => addReferencingField t c m) m)).Nodup ∧
        ∀ p ∈ l.foldl (fun m c => addReferencingField t c m) m, p.2 ≠ [] := by
      intro l
      induction l with
      | nil => intro m h h'; exact ⟨h, h'⟩
      | cons c cs ihc =>
        intro m h h'
        simp only [List.foldl_cons]
        apply ihc _ (keys_mapSet_nodup _ _ _ h)
        intro p hp
        rcases mem_mapSet _ _ _ _ hp with rfl | hp
        · exact addToList_ne_nil _ _
        · exact h' p hp
    obtain ⟨a, b⟩ := this _ m h hne
    exact ih _ a b

theorem mem_keys_iff {α : Type} (m : List (Name × α)) (k : Name) :
    k ∈ keys m ↔ (mapGet k m).isSome = true := by
  induction m with
  | nil => simp [keys, mapGet]
  | cons p m ih =>
    obtain ⟨a, b⟩ := p
    simp only [keys] at ih
    simp only [keys, List.map_cons, List.mem_cons, mapGet, ih]
    by_cases e : k = a <;> simp [e]

theorem MapEq.addFields {m m' new new' : FieldMap} (h : MapEq m m') (hn : MapEq new new')
    {ks ks' : List Name} (hk : ks.Perm (keys new)) (hk' : ks'.Perm (keys new')) :
    MapEq (addReferencingFields ks new m) (addReferencingFields ks' new' m') := by
  have hnd := hk.nodup_iff.mpr hn.1
  have hnd' := hk'.nodup_iff.mpr hn.2.1
  obtain ⟨a, b⟩ := addReferencingFields_nodup ks new m h.1 h.2.2.2
  have hne' : ∀ p ∈ m', p.2 ≠ [] := fun p hp => h.2.2.2 p (h.perm.mem_iff.mpr hp)
  obtain ⟨a', _⟩ := addReferencingFields_nodup ks' new' m' h.2.1 hne'
  refine ⟨a, a', ?_, b⟩
  intro k
  rw [addReferencingFields_get ks hnd, addReferencingFields_get ks' hnd']
  have hmem : k ∈ ks ↔ k ∈ ks' := by
    rw [hk.mem_iff, hk'.mem_iff, mem_keys_iff, mem_keys_iff, hn.2.2.1]
  simp only [hmem, hn.2.2.1, h.2.2.1]

theorem addSubqueryInfo_eq {i i' : Info} (h : InfoEq i i') {ks ks' : List Name} (name asName : Name)
    {cols cols' : List OutputCol} (hc : ColsEq cols cols') {new new' : FieldMap}
    (hn : MapEq new new') (hk : ks.Perm (keys new)) (hk' : ks'.Perm (keys new')) :
    InfoEq (addSubqueryInfo ks name asName cols new i) (addSubqueryInfo ks' name asName cols' new' i') :=
  ⟨h.cols.set _ hc, by simp only [addSubqueryInfo, h.as], by simp only [addSubqueryInfo, h.subq],
    h.fields.addFields hn hk hk'⟩

/-! ### Lookups -/

theorem findSome_perm {α β : Type} (f : α → Option β) {l l' : List α} (hp : l.Perm l')
    (hu : ∀ a ∈ l, ∀ b ∈ l, ∀ r s, f a = some r → f b = some s → r = s) :
    l.findSome? f = l'.findSome? f := by
  cases h : l.findSome? f with
  | none =>
    rw [List.findSome?_eq_none_iff] at h
    symm
    rw [List.findSome?_eq_none_iff]
    intro x hx
    exact h x (hp.mem_iff.mpr hx)
  | some r =>
    obtain ⟨a, ha, hr⟩ := List.exists_of_findSome?_eq_some h
    cases h' : l'.findSome? f with
    | none =>
      rw [List.findSome?_eq_none_iff] at h'
      have := h' a (hp.mem_iff.mp ha)
      rw [hr] at this
      cases this
    | some s =>
      obtain ⟨b, hb, hs⟩ := List.exists_of_findSome?_eq_some h'
      rw [hu a ha b (hp.mem_iff.mpr hb) r s hr hs]

theorem getColumnInfosFrom_look (ks : List Name) (m : OutMap) (x : Name) :
    getColumnInfosFrom ks m x = ks.findSome? fun k => look ((mapGet k m).getD []) x := rfl

theorem getColumnInfosFrom_eq {ks ks' : List Name} {m m' : OutMap} (h : OutEq m m')
    (hk : ks.Perm (keys m)) (hk' : ks'.Perm (keys m')) (x : Name) (hu : OneMeaning m x) :
    getColumnInfosFrom ks m x = getColumnInfosFrom ks' m' x := by
  rw [getColumnInfosFrom_look, getColumnInfosFrom_look]
  have : (fun k => look ((mapGet k m').getD []) x) = fun k => look ((mapGet k m).getD []) x := by
    funext k; exact (h.look k x).symm
  rw [this]
  apply findSome_perm
  · exact hk.trans (h.keys ▸ hk'.symm)
  · intro a ha b hb r s hr hs
    exact hu a (hk.mem_iff.mp ha) b (hk.mem_iff.mp hb) r s hr hs

theorem getTableColsFromAsName_eq {i i' : Info} {ext ext' : OutMap} (h : InfoEq i i')
    (he : OutEq ext ext') (t : Name) :
    Sim ColsEq (getTableColsFromAsName i ext t) (getTableColsFromAsName i' ext' t) := by
  simp only [getTableColsFromAsName, ← h.as]
  cases mapGet t i.asToName with
  | none => simp [Sim]
  | some nm =>
    simp only [getTableColsFromName]
    rcases h.cols.get nm with ⟨h1, h2⟩ | ⟨l, l', h1, h2, hc⟩
    · simp only [h1, h2]
      rcases he.get nm with ⟨h1, h2⟩ | ⟨l, l', h1, h2, hc⟩
      · simp [h1, h2, Sim]
      · simpa [h1, h2, Sim] using hc
    · simpa [h1, h2, Sim] using hc

variable {ord ord' : KeyOrder}

theorem getColumnReference_eq (hord : AnyKeyOrder ord) (hord' : AnyKeyOrder ord') (path : List Nat)
    {i i' : Info} {ext ext' : OutMap} (h : InfoEq i i') (he : OutEq ext ext') (c : FieldColumn)
    (hu : IsUse c → c.table = [] → OneMeaning i.internalCols c.name ∧
      ((∀ k ∈ keys i.internalCols, look ((mapGet k i.internalCols).getD []) c.name = none) →
        OneMeaning ext c.name)) :
    Sim Eq (getColumnReferenceColumnInfos ord path i ext c)
      (getColumnReferenceColumnInfos ord' path i' ext' c) := by
  simp only [getColumnReferenceColumnInfos]
  by_cases h1 : c.type = .subquery
  · simp [h1, Sim]
  · by_cases h2 : c.type = .star
    · simp [h2, Sim]
    · simp only [h1, h2, if_false]
      by_cases ht : c.table = []
      · simp only [ht, if_true, getColumnInfos]
        obtain ⟨hu1, hu2⟩ := hu ⟨h1, h2⟩ ht
        rw [← getColumnInfosFrom_eq h.cols (hord (path ++ [0]) _) (hord' (path ++ [0]) _) c.name hu1]
        cases hg : getColumnInfosFrom (ord (path ++ [0]) (keys i.internalCols)) i.internalCols c.name with
        | some cols => simp [Sim]
        | none =>
          have hnone : ∀ k ∈ keys i.internalCols,
              look ((mapGet k i.internalCols).getD []) c.name = none := by
            rw [getColumnInfosFrom_look, List.findSome?_eq_none_iff] at hg
            intro k hk
            exact hg k ((hord _ _).mem_iff.mpr hk)
          simp only
          rw [← getColumnInfosFrom_eq he (hord (path ++ [1]) _) (hord' (path ++ [1]) _) c.name
            (hu2 hnone), h.subq]
          cases getColumnInfosFrom (ord (path ++ [1]) (keys ext)) ext c.name with
          | some cols => simp [Sim]
          | none =>
            simp only
            split <;> simp [Sim]
      · simp only [ht, if_false, getReferencingColumnInfos]
        have := getTableColsFromAsName_eq h he c.table
        revert this
        cases getTableColsFromAsName i ext c.table with
        | error e => cases getTableColsFromAsName i' ext' c.table <;> simp [Sim]
        | ok l =>
          cases getTableColsFromAsName i' ext' c.table with
          | error e => simp [Sim]
          | ok l' =>
            intro hl
            simp only [Sim] at hl
            have := hl c.name
            simp only [look] at this
            simp only
            cases hf : l.find? (fun fc => c.name = fc.name) with
            | none =>
              cases hf' : l'.find? (fun fc => c.name = fc.name) with
              | none => simp [Sim]
              | some o' => simp [hf, hf'] at this
            | some o =>
              cases hf' : l'.find? (fun fc => c.name = fc.name) with
              | none => simp [hf, hf'] at this
              | some o' => simp only [hf, hf', Option.map_some, Option.some.injEq] at this
                           simpa [Sim] using this

theorem columnLoop_eq (hord : AnyKeyOrder ord) (hord' : AnyKeyOrder ord') {i i' : Info}
    {ext ext' : OutMap} (h : InfoEq i i') (he : OutEq ext ext') (path : List Nat) (k : Nat)
    (cs : List FieldColumn)
    (hu : ∀ c ∈ cs, IsUse c → c.table = [] → OneMeaning i.internalCols c.name ∧
      ((∀ k ∈ keys i.internalCols, look ((mapGet k i.internalCols).getD []) c.name = none) →
        OneMeaning ext c.name))
    {m m' : FieldMap} (hm : MapEq m m') (stars : List Name) :
    Sim (fun a b => a.1 = b.1 ∧ MapEq a.2.1 b.2.1 ∧ a.2.2 = b.2.2)
      (columnLoop ord i ext path k cs m stars) (columnLoop ord' i' ext' path k cs m' stars) := by
  induction cs generalizing k m m' stars with
  | nil => simpa [columnLoop, Sim] using hm
  | cons c cs ih =>
    simp only [columnLoop]
    have h1 := getColumnReference_eq hord hord' (path ++ [k]) h he c (hu c (by simp))
    revert h1
    cases getColumnReferenceColumnInfos ord (path ++ [k]) i ext c with
    | error e => cases getColumnReferenceColumnInfos ord' (path ++ [k]) i' ext' c <;> simp [Sim]
    | ok cis =>
      cases getColumnReferenceColumnInfos ord' (path ++ [k]) i' ext' c with
      | error e => simp [Sim]
      | ok cis' =>
        intro h1
        simp only [Sim] at h1
        subst h1
        simp only
        have h2 := ih (k + 1) (fun c hc => hu c (by simp [hc])) (hm.addInfos c.type cis)
          (if c.type = .star then c.table :: stars else stars)
        revert h2
        cases columnLoop ord i ext path (k + 1) cs (addInfos c.type cis m)
            (if c.type = .star then c.table :: stars else stars) with
        | error e =>
          cases columnLoop ord' i' ext' path (k + 1) cs (addInfos c.type cis m')
            (if c.type = .star then c.table :: stars else stars) <;> simp [Sim]
        | ok r =>
          cases columnLoop ord' i' ext' path (k + 1) cs (addInfos c.type cis m')
            (if c.type = .star then c.table :: stars else stars) with
          | error e => simp [Sim]
          | ok r' =>
            intro h2
            obtain ⟨a1, a2, a3⟩ := r
            obtain ⟨b1, b2, b3⟩ := r'
            simp only [Sim] at h2 ⊢
            exact ⟨by rw [h2.1], h2.2⟩

theorem fieldLoop_eq (hord : AnyKeyOrder ord) (hord' : AnyKeyOrder ord') {i i' : Info}
    {ext ext' : OutMap} (h : InfoEq i i') (he : OutEq ext ext') (path : List Nat) (k : Nat)
    (fs : List Field) (hu : NamesAgree i ext fs) {m m' : FieldMap} (hm : MapEq m m')
    (stars : List Name) :
    Sim (fun a b => a.1 = b.1 ∧ MapEq a.2.1 b.2.1 ∧ a.2.2 = b.2.2)
      (fieldLoop ord i ext path k fs m stars) (fieldLoop ord' i' ext' path k fs m' stars) := by
  induction fs generalizing k m m' stars with
  | nil => simpa [fieldLoop, Sim] using hm
  | cons f fs ih =>
    simp only [fieldLoop]
    have h1 := columnLoop_eq hord hord' h he (path ++ [k]) 0 f.columns (hu f (by simp)) hm stars
    revert h1
    cases columnLoop ord i ext (path ++ [k]) 0 f.columns m stars with
    | error e => cases columnLoop ord' i' ext' (path ++ [k]) 0 f.columns m' stars <;> simp [Sim]
    | ok r =>
      cases columnLoop ord' i' ext' (path ++ [k]) 0 f.columns m' stars with
      | error e => simp [Sim]
      | ok r' =>
        intro h1
        obtain ⟨a1, a2, a3⟩ := r
        obtain ⟨b1, b2, b3⟩ := r'
        simp only [Sim] at h1
        obtain ⟨rfl, h2, rfl⟩ := h1
        simp only
        have h3 := ih (k + 1) (fun f hf => hu f (by simp [hf])) h2 a3
        revert h3
        cases fieldLoop ord i ext path (k + 1) fs a2 a3 with
        | error e => cases fieldLoop ord' i' ext' path (k + 1) fs b2 a3 <;> simp [Sim]
        | ok s =>
          cases fieldLoop ord' i' ext' path (k + 1) fs b2 a3 with
          | error e => simp [Sim]
          | ok s' =>
            intro h3
            obtain ⟨c1, c2, c3⟩ := s
            obtain ⟨d1, d2, d3⟩ := s'
            simp only [Sim] at h3 ⊢
            exact ⟨by rw [h3.1], h3.2⟩

/-! ### Stars -/

theorem look_append (a b : List OutputCol) (x : Name) : look (a ++ b) x = (look a x).or (look b x) := by
  simp only [look, List.find?_append]
  cases a.find? (fun fc => x = fc.name) <;> simp

theorem look_flatten (ls : List (List OutputCol)) (x : Name) :
    look ls.flatten x = ls.findSome? (look · x) := by
  induction ls with
  | nil => rfl
  | cons l ls ih =>
    simp only [List.flatten_cons, look_append, ih, List.findSome?_cons]
    cases look l x <;> simp

theorem look_filter (l : List OutputCol) (names : List Name) (x : Name) :
    look (l.filter fun v => decide (v.name ∉ names)) x = if x ∈ names then none else look l x := by
  induction l with
  | nil => simp [look]
  | cons o l ih =>
    simp only [look] at ih ⊢
    by_cases ho : o.name ∈ names
    · simp only [List.filter_cons, ho, not_true_eq_false, decide_false, Bool.false_eq_true, if_false, ih]
      by_cases hx : x ∈ names
      · simp [hx]
      · have : ¬x = o.name := fun e => hx (e ▸ ho)
        simp [hx, this]
    · simp only [List.filter_cons, ho, not_false_eq_true, decide_true, if_true, List.find?_cons]
      by_cases e : x = o.name
      · simp [← e] at ho ⊢
        simp [ho]
      · simp only [e, decide_false, ih]

theorem look_uniqBy (l : List OutputCol) (x : Name) : look (uniqBy (·.name) l) x = look l x := by
  have : ∀ (seen : List Name) (l : List OutputCol),
      look (uniqGo (fun o : OutputCol => o.name) seen l) x = if x ∈ seen then none else look l x := by
    intro seen l
    induction l generalizing seen with
    | nil => simp [uniqGo, look]
    | cons o l ih =>
      simp only [uniqGo]
      by_cases ho : o.name ∈ seen
      · simp only [ho, if_true, ih]
        by_cases hx : x ∈ seen
        · simp [hx]
        · have : ¬x = o.name := fun e => hx (e ▸ ho)
          simp [hx, look, this]
      · simp only [ho, if_false]
        have hc : look (o :: uniqGo (fun o : OutputCol => o.name) (o.name :: seen) l) x =
            if x = o.name then some o.refs
            else look (uniqGo (fun o : OutputCol => o.name) (o.name :: seen) l) x := by
          by_cases e : x = o.name
          · simp [look, e]
          · simp [look, e]
        rw [hc, ih]
        by_cases e : x = o.name
        · subst e; simp [ho, look]
        · simp only [e, if_false, List.mem_cons, false_or]
          by_cases hx : x ∈ seen
          · simp [hx]
          · simp [hx, look, e]
  have := this [] l
  simpa [uniqBy] using this

/-- The lists a star stands for, in the order the loop visits them. -/
def starVisit (ord : KeyOrder) (i : Info) (ext : OutMap) (path : List Nat) (k : Nat) (t : Name) :
    Except Err (List (List OutputCol)) :=
  if t = [] then .ok ((ord (path ++ [k]) (keys i.internalCols)).map
    fun n => (mapGet n i.internalCols).getD [])
  else match getTableColsFromAsName i ext t with
    | .error e => .error e
    | .ok cols => .ok [cols]

/-- Whether all stars name a table. -/
def starsResolve (i : Info) (ext : OutMap) (ts : List Name) : Prop :=
  ∀ t ∈ ts, t ≠ [] → ∃ cols, getTableColsFromAsName i ext t = .ok cols

theorem starLoop_spec (hord : AnyKeyOrder ord) (i : Info) (ext : OutMap) (path : List Nat) (k : Nat)
    (ts : List Name) :
    (starsResolve i ext ts → ∃ ls : List (List OutputCol),
      starLoop ord i ext path k ts = .ok ls.flatten ∧ ls.Perm (ts.flatMap (starLists i ext))) ∧
    (¬starsResolve i ext ts → ∃ e, starLoop ord i ext path k ts = .error e) := by
  induction ts generalizing k with
  | nil => exact ⟨fun _ => ⟨[], rfl, .refl _⟩, fun h => absurd (by simp [starsResolve]) h⟩
  | cons t ts ih =>
    obtain ⟨ih1, ih2⟩ := ih (k + 1)
    simp only [starLoop]
    constructor
    · intro hr
      obtain ⟨ls, h1, h2⟩ := ih1 (fun t ht => hr t (by simp [ht]))
      by_cases ht : t = []
      · simp only [ht, if_true, h1, List.flatMap_cons]
        refine ⟨(ord (path ++ [k]) (keys i.internalCols)).map
          (fun n => (mapGet n i.internalCols).getD []) ++ ls, ?_, ?_⟩
        · simp [List.flatMap]
        · apply List.Perm.append _ h2
          simp only [starLists, if_true]
          exact (hord _ _).map _
      · obtain ⟨cols, hc⟩ := hr t (by simp) ht
        simp only [ht, if_false, hc, h1, List.flatMap_cons]
        refine ⟨[cols] ++ ls, by simp, ?_⟩
        apply List.Perm.append _ h2
        simp [starLists, ht, hc]
    · intro hr
      by_cases ht : t = []
      · have : ¬starsResolve i ext ts := by
          intro h
          apply hr
          intro t' ht' hne
          rcases List.mem_cons.mp ht' with rfl | ht'
          · exact absurd ht hne
          · exact h t' ht' hne
        obtain ⟨e, he⟩ := ih2 this
        exact ⟨e, by simp [ht, he]⟩
      · simp only [ht, if_false]
        cases hc : getTableColsFromAsName i ext t with
        | error e => exact ⟨e, rfl⟩
        | ok cols =>
          have : ¬starsResolve i ext ts := by
            intro h
            apply hr
            intro t' ht' hne
            rcases List.mem_cons.mp ht' with rfl | ht'
            · exact ⟨cols, hc⟩
            · exact h t' ht' hne
          obtain ⟨e, he⟩ := ih2 this
          exact ⟨e, by simp [he]⟩

theorem starsResolve_eq {i i' : Info} {ext ext' : OutMap} (h : InfoEq i i') (he : OutEq ext ext')
    (ts : List Name) : starsResolve i ext ts ↔ starsResolve i' ext' ts := by
  have one : ∀ t, (∃ cols, getTableColsFromAsName i ext t = .ok cols) ↔
      ∃ cols, getTableColsFromAsName i' ext' t = .ok cols := by
    intro t
    have := getTableColsFromAsName_eq h he t
    revert this
    cases getTableColsFromAsName i ext t <;> cases getTableColsFromAsName i' ext' t <;> simp [Sim]
  simp only [starsResolve, one]

/-- Lists that correspond pointwise. -/
theorem starLists_eq {i i' : Info} {ext ext' : OutMap} (h : InfoEq i i') (he : OutEq ext ext')
    (t : Name) : List.Forall₂ ColsEq (starLists i ext t) (starLists i' ext' t) := by
  simp only [starLists]
  by_cases ht : t = []
  · simp only [ht, if_true, ← h.cols.keys]
    have : ∀ (ks : List Name), List.Forall₂ ColsEq
        (ks.map fun k => (mapGet k i.internalCols).getD [])
        (ks.map fun k => (mapGet k i'.internalCols).getD []) := by
      intro ks
      induction ks with
      | nil => exact .nil
      | cons k ks ih => exact .cons (fun x => h.cols.look k x) ih
    exact this _
  · simp only [ht, if_false]
    have := getTableColsFromAsName_eq h he t
    revert this
    cases getTableColsFromAsName i ext t with
    | error e => cases getTableColsFromAsName i' ext' t <;> simp [Sim]
    | ok l =>
      cases getTableColsFromAsName i' ext' t with
      | error e => simp [Sim]
      | ok l' => intro h; exact .cons h .nil

theorem findSome_forall2 {ls ls' : List (List OutputCol)} (h : List.Forall₂ ColsEq ls ls') (x : Name) :
    ls.findSome? (look · x) = ls'.findSome? (look · x) := by
  induction h with
  | nil => rfl
  | cons hab _ ih => simp only [List.findSome?_cons, hab x, ih]

theorem forall2_flatMap {i i' : Info} {ext ext' : OutMap} (h : InfoEq i i') (he : OutEq ext ext')
    (ts : List Name) : List.Forall₂ ColsEq (ts.flatMap (starLists i ext))
      (ts.flatMap (starLists i' ext')) := by
  induction ts with
  | nil => exact .nil
  | cons t ts ih =>
    simp only [List.flatMap_cons]
    exact List.rel_append (starLists_eq h he t) ih

theorem listStar_eq (hord : AnyKeyOrder ord) (hord' : AnyKeyOrder ord') {i i' : Info}
    {ext ext' : OutMap} (h : InfoEq i i') (he : OutEq ext ext') (path : List Nat) (stars : List Name)
    (found : List OutputCol) :
    Sim (fun a b => (∀ l ∈ stars.flatMap (starLists i ext), ∀ l' ∈ stars.flatMap (starLists i ext),
        ∀ x r r', look l x = some r → look l' x = some r' → r = r') → ColsEq a b)
      (listStar ord path i ext stars found) (listStar ord' path i' ext' stars found) := by
  simp only [listStar]
  obtain ⟨a1, a2⟩ := starLoop_spec hord i ext path 1 (ord (path ++ [0]) (uniq stars))
  obtain ⟨b1, b2⟩ := starLoop_spec hord' i' ext' path 1 (ord' (path ++ [0]) (uniq stars))
  have hmem : ∀ (o : KeyOrder), AnyKeyOrder o → ∀ t, t ∈ o (path ++ [0]) (uniq stars) ↔ t ∈ stars :=
    fun o ho t => ((ho _ _).mem_iff).trans (mem_uniq _ _)
  have hiff : starsResolve i ext (ord (path ++ [0]) (uniq stars)) ↔
      starsResolve i' ext' (ord' (path ++ [0]) (uniq stars)) := by
    rw [starsResolve_eq h he]
    simp only [starsResolve, hmem ord hord, hmem ord' hord']
  by_cases hr : starsResolve i ext (ord (path ++ [0]) (uniq stars))
  · obtain ⟨ls, h1, h2⟩ := a1 hr
    obtain ⟨ls', h1', h2'⟩ := b1 (hiff.mp hr)
    rw [h1, h1']
    simp only [Sim]
    intro hu x
    rw [look_uniqBy, look_uniqBy, look_filter, look_filter, look_flatten, look_flatten]
    split
    · rfl
    · have hsub : ∀ l, l ∈ ls → l ∈ stars.flatMap (starLists i ext) := by
        intro l hl
        obtain ⟨t, ht, hl⟩ := List.mem_flatMap.mp (h2.mem_iff.mp hl)
        exact List.mem_flatMap.mpr ⟨t, (hmem ord hord t).mp ht, hl⟩
      -- canonical visiting order
      have e1 : ls.findSome? (look · x) =
          ((ord' (path ++ [0]) (uniq stars)).flatMap (starLists i ext)).findSome? (look · x) := by
        apply findSome_perm
        · refine h2.trans ?_
          apply List.Perm.flatMap_right
          exact (hord _ _).trans (hord' _ _).symm
        · intro a ha b hb r s hr hs
          exact hu a (hsub a ha) b (hsub b hb) x r s hr hs
      rw [e1, findSome_forall2 (forall2_flatMap h he _) x]
      symm
      apply findSome_perm
      · exact h2'
      · intro a ha b hb r s hr hs
        have key : ∀ a ∈ ls', ∃ a0 ∈ stars.flatMap (starLists i ext), ColsEq a0 a := by
          intro a ha
          have ha' := h2'.mem_iff.mp ha
          obtain ⟨t, ht, hl⟩ := List.mem_flatMap.mp ha'
          have ht' := (hmem ord' hord' t).mp ht
          have := (List.forall₂_iff_get.mp (starLists_eq h he t))
          obtain ⟨n, hn, rfl⟩ := List.getElem_of_mem hl
          have hlen := this.1
          exact ⟨(starLists i ext t)[n]'(by omega), List.mem_flatMap.mpr ⟨t, ht', List.getElem_mem _⟩,
            this.2 n (by omega) hn⟩
        obtain ⟨a0, ha0, ea⟩ := key a ha
        obtain ⟨b0, hb0, eb⟩ := key b hb
        exact hu a0 ha0 b0 hb0 x r s ((ea x).trans hr) ((eb x).trans hs)
  · obtain ⟨e, h1⟩ := a2 hr
    obtain ⟨e', h1'⟩ := b2 (fun h => hr (hiff.mpr h))
    rw [h1, h1']
    simp [Sim]

theorem columnLoop_stars {i : Info} {ext : OutMap} {path : List Nat} {k : Nat}
    {cs : List FieldColumn} {m : FieldMap} {stars : List Name} {r : List ColInfo × FieldMap × List Name}
    (h : columnLoop ord i ext path k cs m stars = .ok r) :
    ∀ t ∈ r.2.2, t ∈ stars ∨ ∃ c ∈ cs, c.type = .star ∧ c.table = t := by
  induction cs generalizing k m stars r with
  | nil => simp only [columnLoop, Except.ok.injEq] at h; subst h; intro t ht; exact .inl ht
  | cons c cs ih =>
    simp only [columnLoop] at h
    split at h
    · cases h
    · split at h
      · cases h
      · next rest m' s' hr =>
        cases h
        intro t ht
        rcases ih hr t ht with h | ⟨c', hc', h⟩
        · split at h
          · next hst =>
            rcases List.mem_cons.mp h with rfl | h
            · exact .inr ⟨c, by simp, hst, rfl⟩
            · exact .inl h
          · exact .inl h
        · exact .inr ⟨c', by simp [hc'], h⟩

theorem fieldLoop_stars {i : Info} {ext : OutMap} {path : List Nat} {k : Nat}
    {fs : List Field} {m : FieldMap} {stars : List Name} {r : List OutputCol × FieldMap × List Name}
    (h : fieldLoop ord i ext path k fs m stars = .ok r) :
    ∀ t ∈ r.2.2, t ∈ stars ∨ ∃ f ∈ fs, ∃ c ∈ f.columns, c.type = .star ∧ c.table = t := by
  induction fs generalizing k m stars r with
  | nil => simp only [fieldLoop, Except.ok.injEq] at h; subst h; intro t ht; exact .inl ht
  | cons f fs ih =>
    simp only [fieldLoop] at h
    split at h
    · cases h
    · next infos m1 s1 hc =>
      split at h
      · cases h
      · next outs m2 s2 hr =>
        cases h
        intro t ht
        rcases ih hr t ht with h | ⟨g, hg, h⟩
        · rcases columnLoop_stars hc t h with h | ⟨c, hc, h⟩
          · exact .inl h
          · exact .inr ⟨f, by simp, c, hc, h⟩
        · exact .inr ⟨g, by simp [hg], h⟩

/-! ### The recursion -/

variable {db : Name → Option TableSchema}

mutual

theorem calcRefs_eq (hord : AnyKeyOrder ord) (hord' : AnyKeyOrder ord') :
    (s : Scope) → ∀ ⦃root : Bool⦄ ⦃path : List Nat⦄ ⦃ext ext' : OutMap⦄, OutEq ext ext' →
    Unambiguous ord db root path ext s →
    Sim (fun a b => (root = false → ColsEq a.1 b.1) ∧ MapEq a.2 b.2)
      (calcRefs ord db path ext s) (calcRefs ord' db path ext' s)
  | .mk name fields fieldScopes tables subScopes => by
    intro root path ext ext' he hu
    simp only [Unambiguous] at hu
    obtain ⟨hu1, hu2⟩ := hu
    simp only [calcRefs]
    have h1 := calcSubs_eq hord hord' subScopes he (newInfo_eq db tables he) hu1
    revert h1 hu2
    cases calcSubs ord db path 0 ext tables subScopes (newInfo db tables ext) with
    | error e =>
      cases calcSubs ord' db path 0 ext' tables subScopes (newInfo db tables ext') <;> simp [Sim]
    | ok i =>
      cases calcSubs ord' db path 0 ext' tables subScopes (newInfo db tables ext') with
      | error e => simp [Sim]
      | ok i' =>
        intro hu2 h1
        simp only [Sim] at h1
        obtain ⟨hu3, hu4⟩ := hu2 i rfl
        simp only
        have h2 := calcFieldScopes_eq hord hord' fieldScopes (getVisibleColumns_eq h1) h1 hu3
        revert h2 hu4
        cases calcFieldScopes ord db path 0 (getVisibleColumns i) fieldScopes i with
        | error e =>
          cases calcFieldScopes ord' db path 0 (getVisibleColumns i') fieldScopes i' <;> simp [Sim]
        | ok j =>
          cases calcFieldScopes ord' db path 0 (getVisibleColumns i') fieldScopes i' with
          | error e => simp [Sim]
          | ok j' =>
            intro hu4 h2
            simp only [Sim] at h2
            obtain ⟨hn, hs⟩ := hu4 j rfl
            simp only
            have h3 := fieldLoop_eq hord hord' h2 he (path ++ [2]) 0 fields hn h2.fields []
            revert h3
            cases hf : fieldLoop ord j ext (path ++ [2]) 0 fields j.refFields [] with
            | error e =>
              cases fieldLoop ord' j' ext' (path ++ [2]) 0 fields j'.refFields [] <;> simp [Sim]
            | ok r =>
              cases fieldLoop ord' j' ext' (path ++ [2]) 0 fields j'.refFields [] with
              | error e => simp [Sim]
              | ok r' =>
                intro h3
                obtain ⟨outs, m, stars⟩ := r
                obtain ⟨outs', m', stars'⟩ := r'
                simp only [Sim] at h3
                obtain ⟨rfl, hm, rfl⟩ := h3
                simp only
                have h4 := listStar_eq hord hord' h2 he (path ++ [3]) stars outs
                revert h4
                cases listStar ord (path ++ [3]) j ext stars outs with
                | error e => cases listStar ord' (path ++ [3]) j' ext' stars outs <;> simp [Sim]
                | ok fs =>
                  cases listStar ord' (path ++ [3]) j' ext' stars outs with
                  | error e => simp [Sim]
                  | ok fs' =>
                    intro h4
                    simp only [Sim] at h4 ⊢
                    refine ⟨?_, hm⟩
                    intro hroot
                    have hag := hs hroot
                    have := h4 (by
                      intro l hl l' hl' x r r' hr hr'
                      obtain ⟨t, ht, hl⟩ := List.mem_flatMap.mp hl
                      obtain ⟨t', ht', hl'⟩ := List.mem_flatMap.mp hl'
                      rcases fieldLoop_stars hf t ht with h | ⟨f, hfm, c, hc, hst, rfl⟩
                      · simp at h
                      rcases fieldLoop_stars hf t' ht' with h | ⟨f', hfm', c', hc', hst', rfl⟩
                      · simp at h
                      exact hag f hfm c hc hst f' hfm' c' hc' hst' l hl l' hl' x r r' hr hr')
                    intro x
                    rw [look_append, look_append, this x]

theorem calcSubs_eq (hord : AnyKeyOrder ord) (hord' : AnyKeyOrder ord') :
    (ss : List Scope) → ∀ ⦃path : List Nat⦄ ⦃k : Nat⦄ ⦃ext ext' : OutMap⦄ ⦃tables : List Table⦄
    ⦃i i' : Info⦄, OutEq ext ext' → InfoEq i i' → UnambiguousSub ord db path k ext tables ss i →
    Sim InfoEq (calcSubs ord db path k ext tables ss i) (calcSubs ord' db path k ext' tables ss i')
  | [] => by
    intro path k ext ext' tables i i' _ hi _
    simpa [calcSubs, Sim] using hi
  | s :: ss => by
    intro path k ext ext' tables i i' he hi hu
    simp only [UnambiguousSub] at hu
    simp only [calcSubs]
    cases hf : tables.reverse.find? (·.name = s.name) with
    | none => simp [Sim]
    | some t =>
      obtain ⟨hu1, hu2⟩ := hu t hf
      simp only
      have he2 : OutEq (if t.isLateral then assign ext (getVisibleColumns i) else ext)
          (if t.isLateral then assign ext' (getVisibleColumns i') else ext') := by
        split
        · exact assign_eq he (getVisibleColumns_eq hi)
        · exact he
      have h1 := calcRefs_eq hord hord' s he2 hu1
      revert h1 hu2
      cases calcRefs ord db (path ++ [0, k])
        (if t.isLateral then assign ext (getVisibleColumns i) else ext) s with
      | error e =>
        cases calcRefs ord' db (path ++ [0, k])
          (if t.isLateral then assign ext' (getVisibleColumns i') else ext') s <;> simp [Sim]
      | ok r =>
        cases calcRefs ord' db (path ++ [0, k])
          (if t.isLateral then assign ext' (getVisibleColumns i') else ext') s with
        | error e => simp [Sim]
        | ok r' =>
          intro hu2 h1
          obtain ⟨cols, new⟩ := r
          obtain ⟨cols', new'⟩ := r'
          simp only [Sim] at h1
          simp only
          exact calcSubs_eq hord hord' ss he
            (addSubqueryInfo_eq hi _ _ (h1.1 trivial) h1.2 (hord _ _) (hord' _ _)) (hu2 cols new rfl)

theorem calcFieldScopes_eq (hord : AnyKeyOrder ord) (hord' : AnyKeyOrder ord') :
    (ss : List Scope) → ∀ ⦃path : List Nat⦄ ⦃k : Nat⦄ ⦃vis vis' : OutMap⦄
    ⦃i i' : Info⦄, OutEq vis vis' → InfoEq i i' → UnambiguousField ord db path k vis ss i →
    Sim InfoEq (calcFieldScopes ord db path k vis ss i) (calcFieldScopes ord' db path k vis' ss i')
  | [] => by
    intro path k vis vis' i i' _ hi _
    simpa [calcFieldScopes, Sim] using hi
  | s :: ss => by
    intro path k vis vis' i i' he hi hu
    simp only [UnambiguousField] at hu
    obtain ⟨hu1, hu2⟩ := hu
    simp only [calcFieldScopes]
    have h1 := calcRefs_eq hord hord' s he hu1
    revert h1 hu2
    cases calcRefs ord db (path ++ [1, k]) vis s with
    | error e => cases calcRefs ord' db (path ++ [1, k]) vis' s <;> simp [Sim]
    | ok r =>
      cases calcRefs ord' db (path ++ [1, k]) vis' s with
      | error e => simp [Sim]
      | ok r' =>
        intro hu2 h1
        obtain ⟨cols, new⟩ := r
        obtain ⟨cols', new'⟩ := r'
        simp only [Sim] at h1
        simp only
        exact calcFieldScopes_eq hord hord' ss he
          (addSubqueryInfo_eq hi _ _ (h1.1 trivial) h1.2 (hord _ _) (hord' _ _)) (hu2 cols new rfl)

end

/-! ## C15 -/

/-- A query is unambiguous: judged with maps iterated in insertion order. -/
def UnambiguousQuery (schemas : List TableSchema) (path : List Nat) (s : Scope) : Prop :=
  Unambiguous (fun _ l => l) (schemaMap schemas) true path [] s

theorem canonKeys : AnyKeyOrder (fun _ l => l) := fun _ _ => .refl _

theorem buildTableFields_eq (hord : AnyKeyOrder ord) (schemas : List TableSchema) (path : List Nat)
    (s : Scope) (hu : UnambiguousQuery schemas path s) :
    Sim MapEq (buildTableFields (fun _ l => l) (schemaMap schemas) path s)
      (buildTableFields ord (schemaMap schemas) path s) := by
  have h := calcRefs_eq canonKeys hord s (OutEq.refl []) hu
  simp only [buildTableFields]
  revert h
  cases calcRefs (fun _ l => l) (schemaMap schemas) path [] s with
  | error e => cases calcRefs ord (schemaMap schemas) path [] s <;> simp [Sim]
  | ok r =>
    cases calcRefs ord (schemaMap schemas) path [] s with
    | error e => simp [Sim]
    | ok r' => simp only [Sim]; exact fun h => h.2

/-- **C15 (partial: unambiguous queries).** If no unqualified name of the query can mean two columns,
then two runs on the same query and schemas, whatever the map and set iteration orders and the
behaviour of the unstable sort, produce literally the same suggestion list (or both fail). -/
theorem C15_deterministic_partial (ord ord' : Order) (kord kord' : KeyOrder) (mord mord' : EntryOrder)
    (srt srt' : List IndexTargetTable → List IndexTargetTable) (hc : Choices ord kord mord srt)
    (hc' : Choices ord' kord' mord' srt') (schemas : List TableSchema) (scopes : List Scope)
    (hu : ∀ i s, scopes[i]? = some s → UnambiguousQuery schemas [i] s) (out : List IndexTarget)
    (h : suggest ord kord mord srt schemas scopes = .ok out) :
    suggest ord' kord' mord' srt' schemas scopes = .ok out := by
  have key : ∀ (ss : List Scope) (f : Nat → Nat),
      (∀ i s, ss[i]? = some s → UnambiguousQuery schemas [f i] s) →
      (∀ i s, ss[i]? = some s → ∃ m, buildTableFields kord (schemaMap schemas) [f i] s = .ok m) →
      List.Forall₂ SameFields (ss.mapIdx fun i => scopeFields kord mord schemas (f i))
        (ss.mapIdx fun i => scopeFields kord' mord' schemas (f i)) ∧
      ∀ m, Except.ok m ∈ (ss.mapIdx fun i => scopeFields kord mord schemas (f i)) →
        ∀ e ∈ m, DistinctNames e.2 := by
    intro ss
    induction ss with
    | nil => intro f _ _; exact ⟨.nil, by simp⟩
    | cons s ss ih =>
      intro f hu hok
      obtain ⟨ih1, ih2⟩ := ih (fun i => f (i + 1)) (fun i s hs => hu (i + 1) s (by simpa using hs))
        (fun i s hs => hok (i + 1) s (by simpa using hs))
      rw [List.mapIdx_cons, List.mapIdx_cons]
      have hus := hu 0 s (by simp)
      obtain ⟨m, hm⟩ := hok 0 s (by simp)
      have h1 := buildTableFields_eq hc.key schemas [f 0] s hus
      have h2 := buildTableFields_eq hc'.key schemas [f 0] s hus
      rw [hm] at h1
      cases hcan : buildTableFields (fun _ l => l) (schemaMap schemas) [f 0] s with
      | error e => rw [hcan] at h1; simp [Sim] at h1
      | ok m0 =>
        rw [hcan] at h1 h2
        cases hm' : buildTableFields kord' (schemaMap schemas) [f 0] s with
        | error e => rw [hm'] at h2; simp [Sim] at h2
        | ok m' =>
          rw [hm'] at h2
          simp only [Sim] at h1 h2
          have hp : m.Perm m' := h1.perm.symm.trans h2.perm
          constructor
          · refine .cons ?_ ih1
            simp only [scopeFields, hm, hm']
            exact .ok (((hc.entry _ _).trans hp).trans (hc'.entry _ _).symm)
          · intro mm hmm e he
            rcases List.mem_cons.mp hmm with h | h
            · simp only [scopeFields, hm, Except.ok.injEq] at h
              subst h
              exact (scope_facts hc.key hm (hc.entry _ _) e he).1
            · exact ih2 mm h e he
  obtain ⟨k1, k2⟩ := key scopes id hu (suggest_ok_scopes h)
  exact C15_same_list ord ord' hc.set hc'.set srt srt' hc.sort hc'.sort schemas _ _ k1 k2 out h

/-- **C15.** Likewise failure does not depend on the iteration orders. -/
theorem C15_deterministic_failure_partial (ord ord' : Order) (kord kord' : KeyOrder)
    (mord mord' : EntryOrder) (srt srt' : List IndexTargetTable → List IndexTargetTable)
    (hc : Choices ord kord mord srt) (hc' : Choices ord' kord' mord' srt')
    (schemas : List TableSchema) (scopes : List Scope)
    (hu : ∀ i s, scopes[i]? = some s → UnambiguousQuery schemas [i] s) :
    (∃ e, suggest ord kord mord srt schemas scopes = .error e) ↔
      ∃ e, suggest ord' kord' mord' srt' schemas scopes = .error e := by
  have one : ∀ (o o' : Order) (k k' : KeyOrder) (mo mo' : EntryOrder)
      (s s' : List IndexTargetTable → List IndexTargetTable), Choices o k mo s → Choices o' k' mo' s' →
      (∃ e, suggest o k mo s schemas scopes = .error e) →
      ∃ e, suggest o' k' mo' s' schemas scopes = .error e := by
    intro o o' k k' mo mo' s s' h h' ⟨e, he⟩
    cases hr : suggest o' k' mo' s' schemas scopes with
    | error e' => exact ⟨e', rfl⟩
    | ok out =>
      have := C15_deterministic_partial o' o k' k mo' mo s' s h' h schemas scopes hu out hr
      rw [he] at this
      cases this
  exact ⟨one _ _ _ _ _ _ _ _ hc hc', one _ _ _ _ _ _ _ _ hc' hc⟩

/-! ### Queries that are unambiguous by their shape -/

mutual

/-- Every column of the query and its subqueries is qualified, and no subquery selects a star. -/
def Qualified (root : Bool) : Scope → Prop
  | .mk _ fields fieldScopes _ subScopes =>
    (∀ f ∈ fields, ∀ c ∈ f.columns, (IsUse c → c.table ≠ []) ∧ (root = false → c.type ≠ .star)) ∧
    QualifiedAll subScopes ∧ QualifiedAll fieldScopes

/-- see `Qualified` -/
def QualifiedAll : List Scope → Prop
  | [] => True
  | s :: ss => Qualified false s ∧ QualifiedAll ss

end

mutual

theorem qualified_unambiguous (o : KeyOrder) : (s : Scope) → ∀ ⦃root : Bool⦄ ⦃path : List Nat⦄
    ⦃ext : OutMap⦄, Qualified root s → Unambiguous o db root path ext s
  | .mk name fields fieldScopes tables subScopes => by
    intro root path ext h
    simp only [Qualified] at h
    simp only [Unambiguous]
    refine ⟨qualified_sub o subScopes h.2.1, fun i _ => ⟨qualified_field o fieldScopes h.2.2, ?_⟩⟩
    intro j _
    constructor
    · intro f hf c hc hu ht
      exact absurd ht ((h.1 f hf c hc).1 hu)
    · intro hr f hf c hc hst
      exact absurd hst ((h.1 f hf c hc).2 hr)

theorem qualified_sub (o : KeyOrder) : (ss : List Scope) → ∀ ⦃path : List Nat⦄ ⦃k : Nat⦄
    ⦃ext : OutMap⦄ ⦃tables : List Table⦄ ⦃i : Info⦄, QualifiedAll ss →
    UnambiguousSub o db path k ext tables ss i
  | [] => by intro path k ext tables i _; simp [UnambiguousSub]
  | s :: ss => by
    intro path k ext tables i h
    simp only [UnambiguousSub]
    exact fun t _ => ⟨qualified_unambiguous o s h.1, fun _ _ _ => qualified_sub o ss h.2⟩

theorem qualified_field (o : KeyOrder) : (ss : List Scope) → ∀ ⦃path : List Nat⦄ ⦃k : Nat⦄
    ⦃vis : OutMap⦄ ⦃i : Info⦄, QualifiedAll ss → UnambiguousField o db path k vis ss i
  | [] => by intro path k vis i _; simp [UnambiguousField]
  | s :: ss => by
    intro path k vis i h
    simp only [UnambiguousField]
    exact ⟨qualified_unambiguous o s h.1, fun _ _ _ => qualified_field o ss h.2⟩

end

/-- **C15.** For queries that qualify every column (and select stars only at the top) the result never
depends on iteration orders. -/
theorem C15_qualified (ord ord' : Order) (kord kord' : KeyOrder) (mord mord' : EntryOrder)
    (srt srt' : List IndexTargetTable → List IndexTargetTable) (hc : Choices ord kord mord srt)
    (hc' : Choices ord' kord' mord' srt') (schemas : List TableSchema) (scopes : List Scope)
    (hq : ∀ s ∈ scopes, Qualified true s) (out : List IndexTarget)
    (h : suggest ord kord mord srt schemas scopes = .ok out) :
    suggest ord' kord' mord' srt' schemas scopes = .ok out :=
  C15_deterministic_partial ord ord' kord kord' mord mord' srt srt' hc hc' schemas scopes
    (fun _ s hs => qualified_unambiguous _ s (hq s (List.mem_of_getElem? hs))) out h

example : Qualified true exQuery := by
  simp [exQuery, Qualified, QualifiedAll, fld, col, n, IsUse]

/-- Unqualified but unambiguous: `SELECT name FROM users WHERE email = 1`. -/
def oneTable : Scope :=
  .mk (n "<root>") [fld [col "" "name" .reference], fld [col "" "email" .condition]] []
    [{ name := n "users" }] []

example : UnambiguousQuery exSchemas [0] oneTable := by
  simp only [UnambiguousQuery, oneTable, Unambiguous, UnambiguousSub, UnambiguousField, true_and,
    calcSubs, calcFieldScopes, Except.ok.injEq]
  rintro i rfl j rfl
  refine ⟨?_, by simp⟩
  have hk : keys (newInfo (schemaMap exSchemas) [{ name := n "users" }] []).internalCols =
      [n "users"] := by decide +kernel
  intro f _ c _ _ _
  constructor
  · intro k h k' h' r r' e e'
    rw [hk] at h h'
    simp only [List.mem_singleton] at h h'
    subst h; subst h'
    exact Option.some.inj (e.symm.trans e')
  · intro _ k h
    simp [keys] at h

end Verif.Fields
