import Verif.Fields.Mention
/-!
# Property C67: no column a query uses is forgotten, at any depth
-/
namespace Verif.Fields
open Verif.Index Verif.Lib Verif.Builder Verif.Builder.Spec Spec

/-! ## Specification -/

/-- Exactly the FROM items of `s` called `a` are the table `t`. -/
def Calls (s : Scope) (a t : Name) : Prop :=
  (∃ T ∈ s.tables, refName T = a) ∧ ∀ T ∈ s.tables, refName T = a → T.name = t

/-- In the query `s`, the column use `c` can only mean a column of the table `t` of its own FROM: by
its qualifier, or because no other FROM item has such a column. -/
def OwnUse (db : Name → Option TableSchema) (s : Scope) (c : FieldColumn) (t : Name) : Prop :=
  (∃ T ∈ s.tables, T.name = t) ∧ Real db t c.name ∧
  (∀ x ∈ s.subScopes ++ s.fieldScopes, x.name ≠ t) ∧
  ((c.table ≠ [] ∧ Calls s c.table t ∧ ∀ x ∈ s.fieldScopes, x.name ≠ c.table) ∨
   (c.table = [] ∧ (∀ T ∈ s.tables, Real db T.name c.name → T.name = t) ∧
    ∀ x ∈ s.subScopes ++ s.fieldScopes, ¬HasStar x.fields ∧ ∀ f ∈ x.fields, label f ≠ c.name))

/-- In the query `s`, the column use `c` means column `n` of the database table `t`: directly, or as
the column of a FROM subquery that selects it, through any number of FROM subqueries. -/
inductive Means (db : Name → Option TableSchema) : Scope → FieldColumn → Name → Name → Prop where
  | own {s : Scope} {c : FieldColumn} {t : Name} : OwnUse db s c t → Means db s c t c.name
  /-- `y` is the only subquery of its name, and its expression `f` the first of its name; `f`
  uses `u`, which means the column; and `c` can only mean `f`, by its qualifier or because nothing
  else in FROM has such a column -/
  | derived {s y : Scope} {c u : FieldColumn} {f : Field} {t n : Name} : y ∈ s.subScopes →
      (∀ x ∈ s.subScopes, x.name = y.name → x = y) → (∀ x ∈ s.fieldScopes, x.name ≠ y.name) →
      c.name ≠ [] → y.fields.find? (label · = c.name) = some f →
      ((c.table ≠ [] ∧ Calls s c.table y.name ∧ ∀ x ∈ s.fieldScopes, x.name ≠ c.table) ∨
       (c.table = [] ∧ (∀ T ∈ s.tables, ¬Real db T.name c.name) ∧
        ∀ x ∈ s.subScopes ++ s.fieldScopes, x = y ∨
          (¬HasStar x.fields ∧ ∀ f ∈ x.fields, label f ≠ c.name))) →
      u ∈ f.columns → IsUse u → Means db y u t n → Means db s c t n

/-- In the expression subquery `y` of `s`, the qualified column use `c` means a column of the table
`t` in the FROM of `s`; nothing in `y` is called like its qualifier. -/
def OuterUse (db : Name → Option TableSchema) (s y : Scope) (c : FieldColumn) (t : Name) : Prop :=
  y ∈ s.fieldScopes ∧ c.table ≠ [] ∧ Calls s c.table t ∧ Real db t c.name ∧
  (∀ x ∈ s.subScopes, x.name ≠ t) ∧
  (∀ T ∈ y.tables, refName T ≠ c.table ∧ T.name ≠ c.table) ∧
  ∀ x ∈ y.subScopes ++ y.fieldScopes, x.name ≠ c.table

/-- The query, or a query nested in it at any depth, uses column `n` of table `t` in a place of type
`ty`. -/
def Uses (db : Name → Option TableSchema) (s : Scope) (t n : Name) (ty : FieldType) : Prop :=
  ∃ x, Inside x s ∧ ∃ f ∈ x.fields, ∃ c ∈ f.columns, IsUse c ∧ c.type = ty ∧
    (Means db x c t n ∨ (c.name = n ∧ ∃ p, Inside p s ∧ OuterUse db p x c t))

/-- Every column use is a plain reference or a condition. -/
def OnlyPlainUses (s : Scope) : Prop := ∀ x, Inside x s → ∀ f ∈ x.fields, ∀ c ∈ f.columns, IsUse c →
  c.type = .reference ∨ c.type = .condition

/-- The column is listed, and as a condition if `ty` is one. -/
def Listed (m : FieldMap) (t n : Name) (ty : FieldType) : Prop :=
  ∃ ty', listedAs m t n = some ty' ∧ (ty = .condition → ty' = .condition)

/-! ## The recorder -/

/-- plain reference or condition -/
abbrev RC (ty : FieldType) : Prop := ty = .reference ∨ ty = .condition

/-- a map listing only plain references and conditions -/
abbrev MapRC (m : FieldMap) : Prop := FieldsGood (fun _ => True) (fun _ => True) RC m

theorem MapRC.listedAs {m : FieldMap} (h : MapRC m) {t n : Name} {ty : FieldType}
    (hl : listedAs m t n = some ty) : RC ty := by
  simp only [Fields.listedAs] at hl
  obtain ⟨c, hc, rfl⟩ := Option.map_eq_some_iff.mp hl
  exact (h.get t c (List.mem_of_find?_eq_some hc)).2

theorem Listed.weaken {m : FieldMap} {t n : Name} {ty ty' : FieldType} (h : Listed m t n ty')
    (hw : ty = .condition → ty' = .condition) : Listed m t n ty := by
  obtain ⟨o, h1, h2⟩ := h
  exact ⟨o, h1, fun e => h2 (hw e)⟩

theorem Listed.add {m : FieldMap} {t n : Name} {ty : FieldType} (h : Listed m t n ty) (t' : Name)
    (c : FieldColumn) : Listed (addReferencingField t' c m) t n ty := by
  obtain ⟨o, h1, h2⟩ := h
  simp only [Listed, listedAs_add, h1, mergeType]
  split
  · refine ⟨_, rfl, fun e => ?_⟩
    split
    · next hc => exact hc.2
    · exact h2 e
  · exact ⟨o, rfl, h2⟩

theorem listed_self {m : FieldMap} (hm : MapRC m) (t : Name) (c : FieldColumn) (hc : RC c.type) :
    Listed (addReferencingField t c m) t c.name c.type := by
  simp only [Listed, listedAs_add, and_self, if_true]
  cases ho : listedAs m t c.name with
  | none => exact ⟨_, rfl, fun e => e⟩
  | some o =>
    refine ⟨_, rfl, fun e => ?_⟩
    rcases hm.listedAs ho with rfl | rfl
    · simp [e]
    · simp

theorem MapRC.add {m : FieldMap} (h : MapRC m) (t : Name) {c : FieldColumn} (hc : RC c.type) :
    MapRC (addReferencingField t c m) := FieldsGood.add h t c trivial ⟨trivial, hc⟩

theorem Listed.addInfos {m : FieldMap} {t n : Name} {ty : FieldType} (h : Listed m t n ty)
    (ty' : FieldType) (cis : List ColInfo) : Listed (addInfos ty' cis m) t n ty := by
  induction cis generalizing m with
  | nil => exact h
  | cons ci cis ih => exact ih (h.add _ _)

theorem listed_addInfos {m : FieldMap} (hm : MapRC m) {ty : FieldType} (hty : RC ty)
    {cis : List ColInfo} {ci : ColInfo} (hci : ci ∈ cis) :
    Listed (addInfos ty cis m) ci.tableName ci.name ty := by
  induction cis generalizing m with
  | nil => simp at hci
  | cons d cis ih =>
    rcases List.mem_cons.mp hci with rfl | hci
    · exact (listed_self hm ci.tableName { table := ci.tableName, name := ci.name, type := ty }
        hty).addInfos ty cis
    · exact ih (hm.add _ hty) hci

theorem Listed.addAll {m : FieldMap} {t n : Name} {ty : FieldType} (h : Listed m t n ty) (t' : Name)
    (l : List FieldColumn) : Listed (l.foldl (fun m c => addReferencingField t' c m) m) t n ty := by
  induction l generalizing m with
  | nil => exact h
  | cons c cs ih => exact ih (h.add _ _)

theorem listed_addAll {m : FieldMap} (hm : MapRC m) (t : Name) (l : List FieldColumn)
    (hl : ∀ c ∈ l, RC c.type) {c : FieldColumn} (hc : c ∈ l) :
    Listed (l.foldl (fun m c => addReferencingField t c m) m) t c.name c.type := by
  induction l generalizing m with
  | nil => simp at hc
  | cons d l ih =>
    rcases List.mem_cons.mp hc with rfl | hc
    · exact (listed_self hm t c (hl c (by simp))).addAll t l
    · exact ih (hm.add t (hl d (by simp))) (fun c hc => hl c (by simp [hc])) hc

theorem Listed.addFields {m : FieldMap} {t n : Name} {ty : FieldType} (h : Listed m t n ty)
    (ks : List Name) (new : FieldMap) : Listed (addReferencingFields ks new m) t n ty := by
  induction ks generalizing m with
  | nil => exact h
  | cons k ks ih => exact ih (h.addAll _ _)

theorem listed_addFields {m new : FieldMap} (hm : MapRC m) (hn : MapRC new) {ks : List Name}
    {t n : Name} {ty : FieldType} (hl : Listed new t n ty) (ht : t ∈ ks) :
    Listed (addReferencingFields ks new m) t n ty := by
  induction ks generalizing m with
  | nil => simp at ht
  | cons k ks ih =>
    simp only [addReferencingFields, List.foldl_cons]
    by_cases hk : k = t
    · subst hk
      obtain ⟨ty', h1, h2⟩ := hl
      simp only [listedAs] at h1
      obtain ⟨c, hc, rfl⟩ := Option.map_eq_some_iff.mp h1
      have hcn : c.name = n := by simpa using List.find?_some hc
      have := listed_addAll hm k _ (fun c hc => (hn.get k c hc).2) (List.mem_of_find?_eq_some hc)
      rw [hcn] at this
      exact (this.weaken h2).addFields ks new
    · have ht' : t ∈ ks := by
        rcases List.mem_cons.mp ht with h | h
        · exact absurd h.symm hk
        · exact h
      refine ih ?_ ht'
      exact FieldsGood.addAll hm k _ trivial (hn.get k)

theorem Listed.key {m : FieldMap} {t n : Name} {ty : FieldType} (h : Listed m t n ty) :
    t ∈ keys m := by
  obtain ⟨_, h1, _⟩ := h
  simp only [listedAs] at h1
  obtain ⟨c, hc, _⟩ := Option.map_eq_some_iff.mp h1
  cases hg : mapGet t m with
  | none => simp [hg] at hc
  | some l => exact mapGet_key _ _ _ hg

/-! ## The loop over the fields -/

/-- Whenever the use `c` is resolved, column `n` of `t` is among the results. -/
def Hits (ord : KeyOrder) (i : Info) (ext : OutMap) (c : FieldColumn) (t n : Name) : Prop :=
  ∀ path cis, getColumnReferenceColumnInfos ord path i ext c = .ok cis → ⟨t, n⟩ ∈ cis

theorem OutGood.triv (m : OutMap) : OutGood (fun _ => True) (fun _ => True) m :=
  fun _ _ _ _ _ _ => ⟨trivial, .inr trivial⟩

theorem columnLoop_listed {ord : KeyOrder} {i : Info} {ext : OutMap} (path : List Nat) (k : Nat)
    (cs : List FieldColumn) (hu : ∀ c ∈ cs, IsUse c → RC c.type) (m : FieldMap) (stars : List Name)
    (hm : MapRC m) {infos : List ColInfo} {m' : FieldMap} {stars' : List Name}
    (h : columnLoop ord i ext path k cs m stars = .ok (infos, m', stars')) :
    (∀ t n ty, Listed m t n ty → Listed m' t n ty) ∧
    ∀ c ∈ cs, IsUse c → ∀ t n, Hits ord i ext c t n → Listed m' t n c.type := by
  induction cs generalizing k m stars infos m' stars' with
  | nil =>
    simp only [columnLoop, Except.ok.injEq, Prod.mk.injEq] at h
    obtain ⟨_, rfl, _⟩ := h
    exact ⟨fun _ _ _ h => h, by simp⟩
  | cons c cs ih =>
    simp only [columnLoop] at h
    split at h
    · cases h
    · next cis hc =>
      split at h
      · cases h
      · next rest m1 s1 hr =>
        cases h
        have g := getColumnReference_good (Ty := RC) (OutGood.triv _) (OutGood.triv _)
          (fun u => ⟨trivial, hu c (by simp) u⟩) hc
        obtain ⟨a, b⟩ := ih (k + 1) (fun c hc => hu c (by simp [hc])) _ _
          (FieldsGood.addInfos hm _ _ g) hr
        refine ⟨fun t n ty hl => a _ _ _ (hl.addInfos _ _), fun d hd hud t n ht => ?_⟩
        rcases List.mem_cons.mp hd with rfl | hd
        · exact a _ _ _ (listed_addInfos hm (hu d (by simp) hud) (ht _ _ hc))
        · exact b d hd hud t n ht

theorem fieldLoop_listed {ord : KeyOrder} {i : Info} {ext : OutMap} (path : List Nat) (k : Nat)
    (fs : List Field) (hu : ∀ f ∈ fs, ∀ c ∈ f.columns, IsUse c → RC c.type) (m : FieldMap)
    (stars : List Name) (hm : MapRC m) {outs : List OutputCol} {m' : FieldMap} {stars' : List Name}
    (h : fieldLoop ord i ext path k fs m stars = .ok (outs, m', stars')) :
    (∀ t n ty, Listed m t n ty → Listed m' t n ty) ∧
    ∀ f ∈ fs, ∀ c ∈ f.columns, IsUse c → ∀ t n, Hits ord i ext c t n → Listed m' t n c.type := by
  induction fs generalizing k m stars outs m' stars' with
  | nil =>
    simp only [fieldLoop, Except.ok.injEq, Prod.mk.injEq] at h
    obtain ⟨_, rfl, _⟩ := h
    exact ⟨fun _ _ _ h => h, by simp⟩
  | cons f fs ih =>
    simp only [fieldLoop] at h
    split at h
    · cases h
    · next infos m1 s1 hc =>
      split at h
      · cases h
      · next outs1 m2 s2 hr =>
        cases h
        obtain ⟨a, b⟩ := columnLoop_listed _ _ _ (hu f (by simp)) _ _ hm hc
        obtain ⟨c, d⟩ := ih (k + 1) (fun f hf => hu f (by simp [hf])) _ _
          (columnLoop_good (Ty := RC) (OutGood.triv _) (OutGood.triv _) _ _ _
            (fun c hc u => ⟨trivial, hu f (by simp) c hc u⟩) _ _ hm hc).2 hr
        refine ⟨fun t n ty hl => c _ _ _ (a _ _ _ hl), fun g hg x hx hux t n ht => ?_⟩
        rcases List.mem_cons.mp hg with rfl | hg
        · exact c _ _ _ (b x hx hux t n ht)
        · exact d g hg x hx hux t n ht

theorem columnLoop_infos {ord : KeyOrder} {i : Info} {ext : OutMap} (path : List Nat) (k : Nat)
    (cs : List FieldColumn) (m : FieldMap) (stars : List Name) {infos : List ColInfo} {m' : FieldMap}
    {stars' : List Name} (h : columnLoop ord i ext path k cs m stars = .ok (infos, m', stars')) :
    ∀ u ∈ cs, ∃ p cis, getColumnReferenceColumnInfos ord p i ext u = .ok cis ∧
      ∀ ci ∈ cis, ci ∈ infos := by
  induction cs generalizing k m stars infos m' stars' with
  | nil => simp
  | cons c cs ih =>
    simp only [columnLoop] at h
    split at h
    · cases h
    · next cis hc =>
      split at h
      · cases h
      · next rest m1 s1 hr =>
        cases h
        intro u hu
        rcases List.mem_cons.mp hu with rfl | hu
        · exact ⟨_, cis, hc, fun ci hci => List.mem_append_left _ hci⟩
        · obtain ⟨p, cis', h1, h2⟩ := ih _ _ _ hr u hu
          exact ⟨p, cis', h1, fun ci hci => List.mem_append_right _ (h2 ci hci)⟩

theorem fieldLoop_outs {ord : KeyOrder} {i : Info} {ext : OutMap} (path : List Nat) (k : Nat)
    (fs : List Field) (m : FieldMap) (stars : List Name) {outs : List OutputCol} {m' : FieldMap}
    {stars' : List Name} (h : fieldLoop ord i ext path k fs m stars = .ok (outs, m', stars')) :
    (∀ o ∈ outs, ∃ f ∈ fs, label f = o.name) ∧
    ∀ x f, x ≠ [] → fs.find? (label · = x) = some f →
      ∃ o, outs.find? (fun fc => x = fc.name) = some o ∧ ∀ u ∈ f.columns, ∃ p cis,
        getColumnReferenceColumnInfos ord p i ext u = .ok cis ∧ ∀ ci ∈ cis, ci ∈ o.refs := by
  induction fs generalizing k m stars outs m' stars' with
  | nil =>
    simp only [fieldLoop, Except.ok.injEq, Prod.mk.injEq] at h
    obtain ⟨rfl, _, _⟩ := h
    simp
  | cons f fs ih =>
    simp only [fieldLoop, outName_eq] at h
    split at h
    · cases h
    · next hc =>
      split at h
      · cases h
      · next hr =>
        cases h
        constructor
        · intro o ho
          rcases List.mem_append.mp ho with ho | ho
          · split at ho
            · simp only [List.mem_singleton] at ho
              subst ho
              exact ⟨f, by simp, rfl⟩
            · simp at ho
          · obtain ⟨g, hg, e⟩ := (ih _ _ _ hr).1 o ho
            exact ⟨g, by simp [hg], e⟩
        · intro x g hx hg
          by_cases hfx : label f = x
          · simp only [List.find?_cons, hfx, decide_true, Option.some.injEq] at hg
            subst hg
            exact ⟨⟨x, _⟩, by simp [hfx, hx], columnLoop_infos _ _ _ _ _ hc⟩
          · simp only [List.find?_cons, hfx, decide_false] at hg
            obtain ⟨o, ho, r⟩ := (ih _ _ _ hr).2 x g hx hg
            refine ⟨o, ?_, r⟩
            rw [List.find?_append]
            have : ∀ infos : List ColInfo, (if (label f) ≠ [] then [⟨label f, infos⟩] else
                ([] : List OutputCol)).find? (fun fc => decide (x = fc.name)) = none := by
              intro infos
              rw [List.find?_eq_none]
              intro o ho
              split at ho
              · simp only [List.mem_singleton] at ho
                subst ho
                simpa using fun e : x = label f => hfx e.symm
              · simp at ho
            rw [this]
            exact ho

/-! ## One query -/

section
variable {ord : KeyOrder} {db : Name → Option TableSchema}

theorem calcSubs_get (ss : List Scope) : ∀ {path : List Nat} {k : Nat} {ext : OutMap}
    {tables : List Table} {i j : Info}, calcSubs ord db path k ext tables ss i = .ok j →
    (∀ n, (∀ y ∈ ss, y.name ≠ n) → mapGet n j.internalCols = mapGet n i.internalCols) ∧
    (∀ a v, mapGet a i.asToName = some v → (∀ T ∈ tables, refName T = a → T.name = v) →
      mapGet a j.asToName = some v) ∧
    (∀ n cols, mapGet n j.internalCols = some cols → mapGet n i.internalCols = some cols ∨
      ∃ y ∈ ss, y.name = n ∧ ∃ p e new, calcRefs ord db p e y = .ok (cols, new)) ∧
    ∀ y ∈ ss, ∃ z ∈ ss, z.name = y.name ∧ ∃ cols p e new, calcRefs ord db p e z = .ok (cols, new) ∧
      mapGet y.name j.internalCols = some cols := by
  induction ss with
  | nil =>
    intro path k ext tables i j h
    simp only [calcSubs, Except.ok.injEq] at h
    subst h
    exact ⟨fun _ _ => rfl, fun _ _ h _ => h, fun _ _ h => .inl h, by simp⟩
  | cons s ss ih =>
    intro path k ext tables i j h
    simp only [calcSubs] at h
    split at h
    · cases h
    · next t hfind =>
      have hmem : t ∈ tables := List.mem_reverse.mp (List.mem_of_find?_eq_some hfind)
      have hname : t.name = s.name := by simpa using List.find?_some hfind
      split at h
      · cases h
      · next cols new hc =>
        obtain ⟨a, b, c, d⟩ := ih h
        refine ⟨fun n hn => ?_, fun x v hx hT => ?_, fun n cs hg => ?_, fun y hy => ?_⟩
        · rw [a n (fun y hy => hn y (by simp [hy]))]
          simp only [addSubqueryInfo, mapGet_mapSet]
          rw [if_neg (fun e => hn s (by simp) e.symm)]
        · refine b x v ?_ hT
          simp only [addSubqueryInfo, mapGet_mapSet]
          split
          · next e => rw [← hname, hT t hmem ((asOrName_eq t).symm.trans e.symm)]
          · exact hx
        · rcases c n cs hg with h' | ⟨y, hy, r⟩
          · simp only [addSubqueryInfo, mapGet_mapSet] at h'
            split at h'
            · next e =>
              cases h'
              exact .inr ⟨s, by simp, e.symm, _, _, _, hc⟩
            · exact .inl h'
          · exact .inr ⟨y, by simp [hy], r⟩
        · by_cases hy' : ∃ z ∈ ss, z.name = y.name
          · obtain ⟨z, hz, e⟩ := hy'
            rw [← e]
            obtain ⟨w, hw, r⟩ := d z hz
            exact ⟨w, by simp [hw], r⟩
          · have hyn : y.name = s.name := by
              rcases List.mem_cons.mp hy with rfl | hy
              · rfl
              · exact absurd ⟨y, hy, rfl⟩ hy'
            rw [a y.name (fun z hz e => hy' ⟨z, hz, e⟩)]
            simp only [addSubqueryInfo, mapGet_mapSet]
            rw [if_pos hyn]
            exact ⟨s, by simp, hyn.symm, cols, _, _, _, hc, rfl⟩

theorem calcFieldScopes_get (ss : List Scope) : ∀ {path : List Nat} {k : Nat} {vis : OutMap}
    {i j : Info}, calcFieldScopes ord db path k vis ss i = .ok j →
    (∀ n, (∀ y ∈ ss, y.name ≠ n) → mapGet n j.internalCols = mapGet n i.internalCols) ∧
    (∀ a, (∀ y ∈ ss, y.name ≠ a) → mapGet a j.asToName = mapGet a i.asToName) ∧
    ∀ n cols, mapGet n j.internalCols = some cols → mapGet n i.internalCols = some cols ∨
      ∃ y ∈ ss, y.name = n ∧ ∃ p e new, calcRefs ord db p e y = .ok (cols, new) := by
  induction ss with
  | nil =>
    intro path k vis i j h
    simp only [calcFieldScopes, Except.ok.injEq] at h
    subst h
    exact ⟨fun _ _ => rfl, fun _ _ => rfl, fun _ _ h => .inl h⟩
  | cons s ss ih =>
    intro path k vis i j h
    simp only [calcFieldScopes] at h
    split at h
    · cases h
    · next cols new hc =>
      obtain ⟨a, b, c⟩ := ih h
      refine ⟨fun n hn => ?_, fun x hx => ?_, fun n cs hg => ?_⟩
      · rw [a n (fun y hy => hn y (by simp [hy]))]
        simp only [addSubqueryInfo, mapGet_mapSet]
        rw [if_neg (fun e => hn s (by simp) e.symm)]
      · rw [b x (fun y hy => hx y (by simp [hy]))]
        simp only [addSubqueryInfo, mapGet_mapSet]
        rw [if_neg (fun e => hx s (by simp) e.symm)]
      · rcases c n cs hg with h' | ⟨y, hy, r⟩
        · simp only [addSubqueryInfo, mapGet_mapSet] at h'
          split at h'
          · next e =>
            cases h'
            exact .inr ⟨s, by simp, e.symm, _, _, _, hc⟩
          · exact .inl h'
        · exact .inr ⟨y, by simp [hy], r⟩

theorem textGood_of {s : Scope} (h : OnlyPlainUses s) :
    TextGood (fun _ => True) (fun _ => True) RC s :=
  fun x hx => ⟨fun _ _ => trivial, fun f hf u hu hi => ⟨trivial, h x hx f hf u hu hi⟩⟩

theorem OnlyPlainUses.sub {s y : Scope} (h : OnlyPlainUses s) (hy : y ∈ s.subScopes) :
    OnlyPlainUses y := fun x hx => h x (.sub hy hx)

theorem OnlyPlainUses.field {s y : Scope} (h : OnlyPlainUses s) (hy : y ∈ s.fieldScopes) :
    OnlyPlainUses y := fun x hx => h x (.field hy hx)

theorem calcSubs_listed (hord : AnyKeyOrder ord) (ss : List Scope) : (∀ y ∈ ss, OnlyPlainUses y) →
    ∀ {path : List Nat} {k : Nat} {ext : OutMap} {tables : List Table} {i j : Info}, MapRC i.refFields →
    calcSubs ord db path k ext tables ss i = .ok j → MapRC j.refFields ∧
    (∀ t n ty, Listed i.refFields t n ty → Listed j.refFields t n ty) ∧
    ∀ y ∈ ss, ∃ p e cols new, calcRefs ord db p e y = .ok (cols, new) ∧
      ∀ t n ty, Listed new t n ty → Listed j.refFields t n ty := by
  induction ss with
  | nil =>
    intro _ path k ext tables i j hi h
    simp only [calcSubs, Except.ok.injEq] at h
    subst h
    exact ⟨hi, fun _ _ _ h => h, by simp⟩
  | cons s ss ih =>
    intro hs path k ext tables i j hi h
    simp only [calcSubs] at h
    split at h
    · cases h
    · next t hfind =>
      split at h
      · cases h
      · next cols new hc =>
        have hnew : MapRC new := (calcRefs_good s (textGood_of (hs s (by simp))) (OutGood.triv _) hc).2
        obtain ⟨a, b, c⟩ := ih (fun y hy => hs y (by simp [hy]))
          (i := addSubqueryInfo (ord (path ++ [4, k]) (keys new)) s.name (refName t) cols new i)
          (FieldsGood.addFields hi hnew _) (by rwa [asOrName_eq] at h)
        refine ⟨a, fun t n ty hl => b t n ty (hl.addFields _ _), fun y hy => ?_⟩
        rcases List.mem_cons.mp hy with rfl | hy
        · exact ⟨_, _, _, _, hc, fun t n ty hl => b t n ty
            (listed_addFields hi hnew hl ((hord _ _).mem_iff.mpr hl.key))⟩
        · exact c y hy

theorem calcFieldScopes_listed (hord : AnyKeyOrder ord) (ss : List Scope) :
    (∀ y ∈ ss, OnlyPlainUses y) →
    ∀ {path : List Nat} {k : Nat} {vis : OutMap} {i j : Info}, MapRC i.refFields →
    calcFieldScopes ord db path k vis ss i = .ok j → MapRC j.refFields ∧
    (∀ t n ty, Listed i.refFields t n ty → Listed j.refFields t n ty) ∧
    ∀ y ∈ ss, ∃ p cols new, calcRefs ord db p vis y = .ok (cols, new) ∧
      ∀ t n ty, Listed new t n ty → Listed j.refFields t n ty := by
  induction ss with
  | nil =>
    intro _ path k vis i j hi h
    simp only [calcFieldScopes, Except.ok.injEq] at h
    subst h
    exact ⟨hi, fun _ _ _ h => h, by simp⟩
  | cons s ss ih =>
    intro hs path k vis i j hi h
    simp only [calcFieldScopes] at h
    split at h
    · cases h
    · next cols new hc =>
      have hnew : MapRC new := (calcRefs_good s (textGood_of (hs s (by simp))) (OutGood.triv _) hc).2
      obtain ⟨a, b, c⟩ := ih (fun y hy => hs y (by simp [hy]))
        (i := addSubqueryInfo (ord (path ++ [5, k]) (keys new)) s.name s.name cols new i)
        (FieldsGood.addFields hi hnew _) h
      refine ⟨a, fun t n ty hl => b t n ty (hl.addFields _ _), fun y hy => ?_⟩
      rcases List.mem_cons.mp hy with rfl | hy
      · exact ⟨_, _, _, hc, fun t n ty hl => b t n ty
          (listed_addFields hi hnew hl ((hord _ _).mem_iff.mpr hl.key))⟩
      · exact c y hy

/-- What a successful run of one query went through. -/
theorem calcRefs_run (hord : AnyKeyOrder ord) (s : Scope) (hs : OnlyPlainUses s) {path : List Nat}
    {ext : OutMap} {outs : List OutputCol} {m : FieldMap}
    (h : calcRefs ord db path ext s = .ok (outs, m)) :
    ∃ i1 i2, calcSubs ord db path 0 ext s.tables s.subScopes (newInfo db s.tables ext) = .ok i1 ∧
      calcFieldScopes ord db path 0 (getVisibleColumns i1) s.fieldScopes i1 = .ok i2 ∧
      (∀ f ∈ s.fields, ∀ c ∈ f.columns, IsUse c → ∀ t n, Hits ord i2 ext c t n →
        Listed m t n c.type) ∧
      (∀ y ∈ s.subScopes, ∃ p e cols new, calcRefs ord db p e y = .ok (cols, new) ∧
        ∀ t n ty, Listed new t n ty → Listed m t n ty) ∧
      (∀ y ∈ s.fieldScopes, ∃ p cols new,
        calcRefs ord db p (getVisibleColumns i1) y = .ok (cols, new) ∧
        ∀ t n ty, Listed new t n ty → Listed m t n ty) ∧
      (¬HasStar s.fields → ∀ o ∈ outs, ∃ f ∈ s.fields, label f = o.name) ∧
      (∀ x f, x ≠ [] → s.fields.find? (label · = x) = some f →
        ∃ o, outs.find? (fun fc => x = fc.name) = some o ∧ ∀ u ∈ f.columns, ∃ p cis,
          getColumnReferenceColumnInfos ord p i2 ext u = .ok cis ∧ ∀ ci ∈ cis, ci ∈ o.refs) := by
  obtain ⟨name, fields, fieldScopes, tables, subScopes⟩ := s
  simp only [calcRefs] at h
  split at h
  · cases h
  · next i1 hi1 =>
    obtain ⟨a1, a2, a3⟩ := calcSubs_listed hord subScopes (fun y hy => hs.sub hy)
      (i := newInfo db tables ext) (by intro p hp; simp [newInfo] at hp) hi1
    split at h
    · cases h
    · next i2 hi2 =>
      obtain ⟨b1, b2, b3⟩ := calcFieldScopes_listed hord fieldScopes (fun y hy => hs.field hy) a1 hi2
      split at h
      · cases h
      · next outs1 m1 stars hf =>
        obtain ⟨c1, c2⟩ := fieldLoop_listed _ _ _ (hs _ .here) _ _ b1 hf
        split at h
        · cases h
        · next st hstar =>
          cases h
          refine ⟨i1, i2, hi1, hi2, c2, fun y hy => ?_, fun y hy => ?_, fun hst o ho => ?_,
            fun x f hne hf' => ?_⟩
          · obtain ⟨p, e, cols, new, r1, r2⟩ := a3 y hy
            exact ⟨p, e, cols, new, r1, fun t n ty hl => c1 _ _ _ (b2 _ _ _ (r2 t n ty hl))⟩
          · obtain ⟨p, cols, new, r1, r2⟩ := b3 y hy
            exact ⟨p, cols, new, r1, fun t n ty hl => c1 _ _ _ (r2 t n ty hl)⟩
          · rcases List.mem_append.mp ho with ho | ho
            · obtain ⟨f, hfm, e⟩ := (fieldLoop_outs _ _ _ _ _ hf).1 o ho
              exact ⟨f, hfm, e⟩
            · exfalso
              have hs0 : stars = [] := by
                cases hst' : stars with
                | nil => rfl
                | cons x xs =>
                  exfalso
                  have := fieldLoop_stars hf x (by simp [hst'])
                  rcases this with h | ⟨f, hfm, c, hc, ht, _⟩
                  · simp at h
                  · exact hst ⟨f, hfm, c, hc, ht⟩
              subst hs0
              simp only [listStar] at hstar
              have e0 : ord (path ++ [3] ++ [0]) (uniq []) = [] :=
                List.perm_nil.mp ((hord _ _).trans (by rfl))
              rw [e0] at hstar
              simp only [starLoop, List.filter_nil] at hstar
              cases hstar
              simp [uniqBy, uniqGo] at ho
          · obtain ⟨o, ho, r⟩ := (fieldLoop_outs _ _ _ _ _ hf).2 x f hne hf'
            exact ⟨o, by rw [List.find?_append, ho]; rfl, r⟩

/-- The columns of a table in FROM are what the schema says. -/
theorem brc_find {tables : List Table} {t x : Name} (hT : ∃ T ∈ tables, T.name = t)
    (hr : Real db t x) : ∃ cols fc, mapGet t (buildReferencingColumns db tables) = some cols ∧
      cols.find? (fun fc => x = fc.name) = some fc ∧ fc.refs = [⟨t, x⟩] := by
  obtain ⟨T, hT, rfl⟩ := hT
  obtain ⟨cols, hg, o, ho, hx⟩ := (brc_ok db tables).complete T hT x hr
  cases hf : cols.find? (fun fc => x = fc.name) with
  | none =>
    rw [List.find?_eq_none] at hf
    exact absurd (hf o ho) (by simp [hx])
  | some fc =>
    have hn : x = fc.name := by simpa using List.find?_some hf
    refine ⟨cols, fc, hg, hf, ?_⟩
    rw [((brc_ok db tables).sound _ cols hg).2 fc (List.mem_of_find?_eq_some hf) |>.1, hn]

theorem foldl_alias_get (ts : List Table) (m : List (Name × Name)) (a v : Name)
    (hall : ∀ T ∈ ts, refName T = a → T.name = v)
    (h : mapGet a m = some v ∨ ∃ T ∈ ts, refName T = a) :
    mapGet a (ts.foldl (fun m t => mapSet t.asOrName t.name m) m) = some v := by
  simp only [asOrName_eq]
  induction ts generalizing m with
  | nil =>
    rcases h with h | ⟨T, hT, _⟩
    · exact h
    · simp at hT
  | cons T ts ih =>
    simp only [List.foldl_cons]
    apply ih _ (fun T hT => hall T (by simp [hT]))
    by_cases hT : refName T = a
    · left
      rw [mapGet_mapSet, if_pos hT.symm, hall T (by simp) hT]
    · rcases h with h | ⟨T', hT', e⟩
      · left
        rw [mapGet_mapSet, if_neg (fun e => hT e.symm)]
        exact h
      · rcases List.mem_cons.mp hT' with rfl | hT'
        · exact absurd e hT
        · exact .inr ⟨T', hT', e⟩

theorem foldl_self_get (ks : List Name) (m : List (Name × Name)) (a : Name)
    (h : mapGet a m = some a ∨ a ∈ ks) : mapGet a (ks.foldl (fun m k => mapSet k k m) m) = some a := by
  induction ks generalizing m with
  | nil => simpa using h
  | cons k ks ih =>
    simp only [List.foldl_cons]
    apply ih
    by_cases hk : a = k
    · left; rw [mapGet_mapSet, if_pos hk, hk]
    · rcases h with h | h
      · left; rw [mapGet_mapSet, if_neg hk]; exact h
      · rcases List.mem_cons.mp h with h | h
        · exact absurd h hk
        · exact .inr h

theorem mapGet_visible {i : Info} {a v : Name} {cols : List OutputCol}
    (h1 : mapGet a i.asToName = some v) (h2 : mapGet v i.internalCols = some cols) :
    mapGet a (getVisibleColumns i) = some cols := by
  simp only [getVisibleColumns]
  revert h1
  induction i.asToName with
  | nil => intro h; simp [mapGet] at h
  | cons p ps ih =>
    obtain ⟨k, w⟩ := p
    intro h1
    simp only [mapGet] at h1
    by_cases hk : a = k
    · subst hk
      simp only [if_true, Option.some.injEq] at h1
      subst h1
      simp [h2, mapGet]
    · simp only [hk, if_false] at h1
      simp only [List.filterMap_cons]
      cases hw : mapGet w i.internalCols with
      | none => simpa using ih h1
      | some c => simpa [mapGet, hk] using ih h1

/-- What a column use must find in the columns of FROM, whatever the order of iteration: by its qualifier, or
among all tables, one of which has it. -/
def Meant (s : Scope) (i : Info) (c : FieldColumn) (t n : Name) : Prop :=
  (c.table ≠ [] ∧ ∃ k cols o, mapGet c.table i.asToName = some k ∧ mapGet k i.internalCols = some cols ∧
    cols.find? (fun fc => c.name = fc.name) = some o ∧ ⟨t, n⟩ ∈ o.refs) ∨
  (c.table = [] ∧ (∃ k cols o, (∃ T ∈ s.tables, T.name = k) ∧ mapGet k i.internalCols = some cols ∧
      cols.find? (fun fc => c.name = fc.name) = some o) ∧
    ∀ k cols o, mapGet k i.internalCols = some cols → cols.find? (fun fc => c.name = fc.name) = some o →
      ⟨t, n⟩ ∈ o.refs)

theorem getColumnInfosFrom_some {ks : List Name} {m : OutMap} {x : Name} {r : List ColInfo}
    (h : getColumnInfosFrom ks m x = some r) :
    ∃ k cols o, mapGet k m = some cols ∧ cols.find? (fun fc => x = fc.name) = some o ∧ r = o.refs := by
  obtain ⟨k, _, hk⟩ := List.exists_of_findSome?_eq_some h
  obtain ⟨o, ho, rfl⟩ := Option.map_eq_some_iff.mp hk
  cases hg : mapGet k m with
  | none => simp [hg] at ho
  | some cols =>
    rw [hg] at ho
    exact ⟨k, cols, o, hg, ho, rfl⟩

theorem getColumnInfosFrom_of {ks : List Name} {m : OutMap} {x k : Name} {cols : List OutputCol} {o : OutputCol}
    (hk : k ∈ ks) (h : mapGet k m = some cols) (ho : cols.find? (fun fc => x = fc.name) = some o) :
    ∃ r, getColumnInfosFrom ks m x = some r := by
  rw [← Option.isSome_iff_exists]
  simp only [getColumnInfosFrom, List.findSome?_isSome_iff]
  exact ⟨k, hk, by simp [h, ho]⟩

theorem Meant.hits (hord : AnyKeyOrder ord) {s : Scope} {i : Info} {c : FieldColumn} {t n : Name}
    (h : Meant s i c t n) (hc : IsUse c) (ext : OutMap) : Hits ord i ext c t n := by
  intro p cis hcis
  simp only [getColumnReferenceColumnInfos, hc.1, hc.2, if_false] at hcis
  rcases h with ⟨hne, k, cols, o, h1, h2, h3, h4⟩ | ⟨he, ⟨k, cols, o, _, h1, h2⟩, hall⟩
  · simp only [hne, if_false, getReferencingColumnInfos, getTableColsFromAsName, h1,
      getTableColsFromName, h2, h3, Except.ok.injEq] at hcis
    rw [← hcis]; exact h4
  · simp only [he, if_true, getColumnInfos] at hcis
    obtain ⟨r, hr⟩ := getColumnInfosFrom_of (ks := ord (p ++ [0]) (keys i.internalCols))
      ((hord _ _).mem_iff.mpr (mapGet_key _ _ _ h1)) h1 h2
    simp only [hr, Except.ok.injEq] at hcis
    obtain ⟨k', cols', o', e1, e2, rfl⟩ := getColumnInfosFrom_some hr
    rw [← hcis]
    exact hall k' cols' o' e1 e2

theorem own_meant (hord : AnyKeyOrder ord) (s : Scope) (hs : OnlyPlainUses s) {path : List Nat}
    {ext : OutMap} {i1 i2 : Info}
    (h1 : calcSubs ord db path 0 ext s.tables s.subScopes (newInfo db s.tables ext) = .ok i1)
    (h2 : calcFieldScopes ord db path 0 (getVisibleColumns i1) s.fieldScopes i1 = .ok i2)
    {c : FieldColumn} {t : Name} (hu : OwnUse db s c t) : Meant s i2 c t c.name := by
  obtain ⟨hT, hr, hsub, hq⟩ := hu
  obtain ⟨a1, a2, a3, _⟩ := calcSubs_get _ h1
  obtain ⟨b1, b2, b3⟩ := calcFieldScopes_get _ h2
  obtain ⟨cols, fc, g1, g2, g3⟩ := brc_find (db := db) hT hr
  have hcols : mapGet t i2.internalCols = some cols := by
    rw [b1 t (fun y hy => hsub y (List.mem_append_right _ hy)),
      a1 t (fun y hy => hsub y (List.mem_append_left _ hy))]
    exact g1
  rcases hq with ⟨hne, ⟨hex, hall⟩, hfs⟩ | ⟨he, hone, hout⟩
  · refine .inl ⟨hne, t, cols, fc, ?_, hcols, g2, by rw [g3]; simp⟩
    rw [b2 _ hfs]
    exact a2 _ _ (foldl_alias_get _ _ _ _ hall (.inr hex)) hall
  · refine .inr ⟨he, ⟨t, cols, fc, hT, hcols, g2⟩, ?_⟩
    intro k l o hg ho
    have hon : c.name = o.name := by simpa using List.find?_some ho
    have hom := List.mem_of_find?_eq_some ho
    have bad : ∀ y ∈ s.subScopes ++ s.fieldScopes, OnlyPlainUses y → ∀ p e new,
        calcRefs ord db p e y = .ok (l, new) → False := by
      intro y hy hpy p e new hrun
      obtain ⟨_, _, _, _, _, _, _, hstar, _⟩ := calcRefs_run hord y hpy hrun
      obtain ⟨f, hf, e⟩ := hstar (hout y hy).1 o hom
      exact (hout y hy).2 f hf (e.trans hon.symm)
    rcases b3 k l hg with hg1 | ⟨y, hy, _, p, e, new, hrun⟩
    · rcases a3 k l hg1 with hg0 | ⟨y, hy, _, p, e, new, hrun⟩
      · obtain ⟨r1, r2, T, hTm, r3⟩ := ((brc_ok db s.tables).sound k l hg0).2 o hom
        have := hone T hTm (by rw [r3, hon]; exact r2)
        rw [r1, ← hon, ← r3, this]
        simp
      · exact (bad y (List.mem_append_left _ hy) (hs.sub hy) p e new hrun).elim
    · exact (bad y (List.mem_append_right _ hy) (hs.field hy) p e new hrun).elim

theorem outer_hits (s y : Scope) {path pathy : List Nat} {ext : OutMap} {i1 j1 j2 : Info}
    (h1 : calcSubs ord db path 0 ext s.tables s.subScopes (newInfo db s.tables ext) = .ok i1)
    (g1 : calcSubs ord db pathy 0 (getVisibleColumns i1) y.tables y.subScopes
      (newInfo db y.tables (getVisibleColumns i1)) = .ok j1)
    (g2 : calcFieldScopes ord db pathy 0 (getVisibleColumns j1) y.fieldScopes j1 = .ok j2)
    {c : FieldColumn} (hc : IsUse c) {t : Name} (hu : OuterUse db s y c t) :
    Hits ord j2 (getVisibleColumns i1) c t c.name := by
  obtain ⟨_, hne, ⟨⟨T, hT, hTa⟩, hall⟩, hr, hsub, hyT, hyS⟩ := hu
  obtain ⟨a1, a2, _⟩ := calcSubs_get _ h1
  obtain ⟨cols, fc, e1, e2, e3⟩ := brc_find (db := db) (tables := s.tables) ⟨T, hT, hall T hT hTa⟩ hr
  have hcols : mapGet t i1.internalCols = some cols := by
    rw [a1 t hsub]; exact e1
  have has : mapGet c.table i1.asToName = some t :=
    a2 _ _ (foldl_alias_get _ _ _ _ hall (.inr ⟨T, hT, hTa⟩)) hall
  have hext := mapGet_visible has hcols
  obtain ⟨b1, b2, _⟩ := calcSubs_get _ g1
  obtain ⟨d1, d2, _⟩ := calcFieldScopes_get _ g2
  have hya : mapGet c.table j2.asToName = some c.table := by
    rw [d2 _ (fun x hx => hyS x (List.mem_append_right _ hx))]
    refine b2 _ _ ?_ (fun T hT e => absurd e (hyT T hT).1)
    refine foldl_alias_get _ _ _ _ (fun T hT e => absurd e (hyT T hT).1) (.inl ?_)
    exact foldl_self_get _ _ _ (.inr (mapGet_key _ _ _ hext))
  have hyn : mapGet c.table j2.internalCols = none := by
    rw [d1 _ (fun x hx => hyS x (List.mem_append_right _ hx)),
      b1 _ (fun x hx => hyS x (List.mem_append_left _ hx))]
    cases hg : mapGet c.table (newInfo db y.tables (getVisibleColumns i1)).internalCols with
    | none => rfl
    | some l =>
      exfalso
      obtain ⟨hnil, hsound⟩ := (brc_ok db y.tables).sound _ l hg
      cases l with
      | nil => exact hnil rfl
      | cons o os =>
        obtain ⟨_, _, T', hT', e⟩ := hsound o (by simp)
        exact (hyT T' hT').2 e
  intro p cis hcis
  simp only [getColumnReferenceColumnInfos, hc.1, hc.2, if_false, hne, getReferencingColumnInfos,
    getTableColsFromAsName, hya, getTableColsFromName, hyn, hext, e2, Except.ok.injEq] at hcis
  rw [← hcis, e3]
  simp

theorem calcSubs_named (ss : List Scope) : ∀ {path : List Nat} {k : Nat} {ext : OutMap}
    {tables : List Table} {i j : Info}, calcSubs ord db path k ext tables ss i = .ok j →
    ∀ y ∈ ss, ∃ T ∈ tables, T.name = y.name := by
  induction ss with
  | nil => intro path k ext tables i j _ y hy; cases hy
  | cons s ss ih =>
    intro path k ext tables i j h y hy
    simp only [calcSubs] at h
    split at h
    · cases h
    · next t hfind =>
      split at h
      · cases h
      · rcases List.mem_cons.mp hy with rfl | hy
        · exact ⟨t, List.mem_reverse.mp (List.mem_of_find?_eq_some hfind), by simpa using List.find?_some hfind⟩
        · exact ih h y hy

theorem means_meant (hord : AnyKeyOrder ord) {s : Scope} {c : FieldColumn} {t n : Name}
    (hm : Means db s c t n) : OnlyPlainUses s → ∀ {path : List Nat} {ext : OutMap}
    {i1 i2 : Info},
    calcSubs ord db path 0 ext s.tables s.subScopes (newInfo db s.tables ext) = .ok i1 →
    calcFieldScopes ord db path 0 (getVisibleColumns i1) s.fieldScopes i1 = .ok i2 →
    Meant s i2 c t n := by
  induction hm with
  | own hu => intro hs path ext i1 i2 h1 h2; exact own_meant hord _ hs h1 h2 hu
  | @derived s y c u f t n hy huniq hfs hne hf hq huc huu _ ih =>
    intro hs path ext i1 i2 h1 h2
    obtain ⟨a1, a2, a3, a4⟩ := calcSubs_get _ h1
    obtain ⟨b1, b2, b3⟩ := calcFieldScopes_get _ h2
    -- the columns of `y` as `s` sees them, from a run of `y`
    obtain ⟨z, hz, hzn, cols, py, ey, new, hrun, hget⟩ := a4 y hy
    have hzy := huniq z hz hzn
    subst hzy
    have hcols : mapGet z.name i2.internalCols = some cols := by rw [b1 _ hfs]; exact hget
    obtain ⟨j1, j2, g1, g2, _, _, _, _, gout⟩ := calcRefs_run hord z (hs.sub hy) hrun
    obtain ⟨o, ho, hrefs⟩ := gout c.name f hne hf
    obtain ⟨pu, cis, hcis, hsub⟩ := hrefs u huc
    have hin : ⟨t, n⟩ ∈ o.refs := hsub _ ((ih (hs.sub hy) g1 g2).hits hord huu _ _ _ hcis)
    rcases hq with ⟨hte, ⟨hex, hall⟩, hfa⟩ | ⟨he, hbase, hout⟩
    · refine .inl ⟨hte, z.name, cols, o, ?_, hcols, ho, hin⟩
      rw [b2 _ hfa]
      exact a2 _ _ (foldl_alias_get _ _ _ _ hall (.inr hex)) hall
    · refine .inr ⟨he, ⟨z.name, cols, o, calcSubs_named _ h1 z hy, hcols, ho⟩, ?_⟩
      intro k l o' hgk ho'
      have hon : c.name = o'.name := by simpa using List.find?_some ho'
      have hom := List.mem_of_find?_eq_some ho'
      have same : k = z.name → ⟨t, n⟩ ∈ o'.refs := by
        rintro rfl
        rw [hcols] at hgk
        cases hgk
        rw [ho] at ho'
        cases ho'
        exact hin
      have other : ∀ x ∈ s.subScopes ++ s.fieldScopes, x.name = k → OnlyPlainUses x → ∀ p e new,
          calcRefs ord db p e x = .ok (l, new) → ⟨t, n⟩ ∈ o'.refs := by
        intro x hx hxk hpx p e new hrun'
        rcases hout x hx with rfl | ⟨hns, hno⟩
        · exact same hxk.symm
        · obtain ⟨_, _, _, _, _, _, _, hstar, _⟩ := calcRefs_run hord x hpx hrun'
          obtain ⟨f', hf', e⟩ := hstar hns o' hom
          exact absurd (e.trans hon.symm) (hno f' hf')
      rcases b3 k l hgk with hg1 | ⟨x, hx, hxk, p, e, new, hr'⟩
      · rcases a3 k l hg1 with hg0 | ⟨x, hx, hxk, p, e, new, hr'⟩
        · obtain ⟨_, r2, T, hTm, r3⟩ := ((brc_ok db s.tables).sound k l hg0).2 o' hom
          exact absurd (by rw [r3, hon]; exact r2) (hbase T hTm)
        · exact other x (List.mem_append_left _ hx) hxk (hs.sub hx) p e new hr'
      · exact other x (List.mem_append_right _ hx) hxk (hs.field hx) p e new hr'

/-- Runs of nested queries are part of the run of the query. -/
theorem inside_run (hord : AnyKeyOrder ord) {x s : Scope} (hx : Inside x s) (hs : OnlyPlainUses s) :
    ∀ {path : List Nat} {ext : OutMap} {outs : List OutputCol} {m : FieldMap},
    calcRefs ord db path ext s = .ok (outs, m) →
    ∃ p e o n, calcRefs ord db p e x = .ok (o, n) ∧ ∀ t c ty, Listed n t c ty → Listed m t c ty := by
  induction hx with
  | here =>
    intro path ext outs m h
    exact ⟨_, _, _, _, h, fun _ _ _ h => h⟩
  | sub hy _ ih =>
    intro path ext outs m h
    obtain ⟨_, _, _, _, _, r, _⟩ := calcRefs_run hord _ hs h
    obtain ⟨p, e, cols, new, q1, q2⟩ := r _ hy
    obtain ⟨p', e', o, n, u1, u2⟩ := ih (hs.sub hy) q1
    exact ⟨p', e', o, n, u1, fun t c ty hl => q2 _ _ _ (u2 _ _ _ hl)⟩
  | field hy _ ih =>
    intro path ext outs m h
    obtain ⟨_, _, _, _, _, _, r, _⟩ := calcRefs_run hord _ hs h
    obtain ⟨p, cols, new, q1, q2⟩ := r _ hy
    obtain ⟨p', e', o, n, u1, u2⟩ := ih (hs.field hy) q1
    exact ⟨p', e', o, n, u1, fun t c ty hl => q2 _ _ _ (u2 _ _ _ hl)⟩

theorem OnlyPlainUses.inside {x s : Scope} (hx : Inside x s) (hs : OnlyPlainUses s) :
    OnlyPlainUses x := by
  induction hx with
  | here => exact hs
  | sub hy _ ih => exact ih (hs.sub hy)
  | field hy _ ih => exact ih (hs.field hy)

end

/-- **C67.** When a query resolves, every column of a database table that it uses, at any depth of
subqueries, through FROM subqueries that select it, and also from an expression subquery into the
query around it, is listed under that table; and as a condition if it is used in a condition. -/
theorem C67_used_is_listed (ord : KeyOrder) (hord : AnyKeyOrder ord) (db : Name → Option TableSchema)
    (path : List Nat) (s : Scope) (hs : OnlyPlainUses s) (m : FieldMap)
    (h : buildTableFields ord db path s = .ok m) (t n : Name) (ty : FieldType)
    (hu : Uses db s t n ty) : Listed m t n ty := by
  simp only [buildTableFields] at h
  split at h
  · cases h
  · next outs m' hrun =>
    cases h
    obtain ⟨x, hx, f, hf, c, hc, hcu, rfl, hown | ⟨rfl, p, hp, hout⟩⟩ := hu
    · obtain ⟨p, e, o, n, r1, r2⟩ := inside_run hord hx hs hrun
      obtain ⟨i1, i2, q1, q2, q3, _⟩ := calcRefs_run hord x (hs.inside hx) r1
      exact r2 _ _ _ (q3 f hf c hc hcu _ _ ((means_meant hord hown (hs.inside hx) q1 q2).hits hord hcu _))
    · obtain ⟨pp, e, o, n, r1, r2⟩ := inside_run hord hp hs hrun
      obtain ⟨i1, i2, q1, q2, q3, _, q5, _⟩ := calcRefs_run hord p (hs.inside hp) r1
      obtain ⟨py, cols, new, u1, u2⟩ := q5 x hout.1
      obtain ⟨j1, j2, v1, v2, v3, _⟩ := calcRefs_run hord x (hs.inside hx) u1
      exact r2 _ _ _ (u2 _ _ _ (v3 f hf c hc hcu _ _ (outer_hits p x q1 v1 v2 hcu hout)))

/-- **C66 for whole queries.** Every suggested index is on a table some query of the statement reads,
and on columns that are used by name in that same query. -/
theorem C66_suggested_is_mentioned (ord : Order) (kord : KeyOrder) (mord : EntryOrder)
    (srt : List IndexTargetTable → List IndexTargetTable) (hc : Choices ord kord mord srt)
    (schemas : List TableSchema) (scopes : List Scope) (out : List IndexTarget)
    (h : suggest ord kord mord srt schemas scopes = .ok out) :
    ∀ t ∈ out, ∃ s ∈ scopes, ReadSomewhere s t.tableName ∧
      ∀ c ∈ t.columns, ∃ ty, UsedSomewhere s c.name ty := by
  obtain ⟨out', ho, hmem⟩ := C17_suggest_exact ord kord mord srt hc schemas scopes
    (suggest_ok_scopes h)
  rw [h] at ho
  cases ho
  intro t ht
  obtain ⟨i, s, m, hs, hm, e, he, sch, _, l, hl, _, rfl⟩ := (hmem t).mp ht
  obtain ⟨h1, h2⟩ := C66_listed_is_mentioned kord _ _ s m hm e he
  refine ⟨s, List.mem_of_getElem? hs, h1, fun c hcm => ?_⟩
  simp only [newIndexTarget, List.map_map, List.mem_map] at hcm
  obtain ⟨d, hd, rfl⟩ := hcm
  exact (h2 d (hl.2.2.1 d hd)).1

theorem buildTables_no_fields {E : Type} (ord : Order) (schemas : List TableSchema) (i : Nat)
    (path : List Nat) (m : List (Name × List FieldColumn)) (e : E) :
    buildTables ord schemas i path m ≠ .error (.fields e) := by
  induction m generalizing i with
  | nil => simp [buildTables]
  | cons p m ih =>
    simp only [buildTables]
    split
    · simp
    · split
      · next e' he => intro h; cases h; exact ih _ he
      · simp

/-- **C66 for whole queries.** The analysis does not crash when every FROM subquery has its entry. -/
theorem C66_suggest_no_crash (ord : Order) (kord : KeyOrder) (mord : EntryOrder)
    (srt : List IndexTargetTable → List IndexTargetTable) (schemas : List TableSchema)
    (scopes : List Scope) (hs : ∀ s ∈ scopes, SubsNamed s) :
    suggest ord kord mord srt schemas scopes ≠ .error (.fields .panic) := by
  have gen : ∀ (ss : List Scope) (f : Nat → Nat) (i : Nat), (∀ s ∈ ss, SubsNamed s) →
      buildScopes ord schemas i (ss.mapIdx (fun i => scopeFields kord mord schemas (f i))) ≠
        .error (.fields .panic) := by
    intro ss
    induction ss with
    | nil => intro f i _ h; simp [buildScopes] at h
    | cons s ss ih =>
      intro f i hs h
      rw [List.mapIdx_cons] at h
      cases hb : buildTableFields kord (schemaMap schemas) [f 0] s with
      | error e =>
        simp only [scopeFields, hb, buildScopes, Except.error.injEq, BuildErr.fields.injEq] at h
        subst h
        exact C66_no_crash kord _ _ s (hs s (by simp)) hb
      | ok m =>
        simp only [scopeFields, hb, buildScopes] at h
        split at h
        · next e he =>
          cases h
          exact buildTables_no_fields _ _ _ _ _ _ he
        · split at h
          · next e he =>
            cases h
            exact ih (fun i => f (i + 1)) (i + 1) (fun s hs' => hs s (by simp [hs'])) he
          · cases h
  intro h
  simp only [suggest, build] at h
  split at h
  · next e he =>
    cases h
    exact gen scopes id 0 hs he
  · cases h

theorem Listed.mem {m : FieldMap} {t n : Name} (hl : Listed m t n .condition) :
    ∃ e ∈ m, e.1 = t ∧ ∃ c ∈ e.2, c.name = n ∧ c.type = .condition := by
  obtain ⟨ty, h1, h2⟩ := hl
  simp only [listedAs] at h1
  obtain ⟨c, hc, rfl⟩ := Option.map_eq_some_iff.mp h1
  cases hg : mapGet t m with
  | none => simp [hg] at hc
  | some l =>
    simp only [hg, Option.getD_some] at hc
    exact ⟨(t, l), mapGet_mem _ _ _ hg, rfl, c, List.mem_of_find?_eq_some hc,
      by simpa using List.find?_some hc, h2 rfl⟩

/-- columns listed as conditions are suggested -/
theorem listed_suggested (ord : Order) (kord : KeyOrder) (mord : EntryOrder)
    (srt : List IndexTargetTable → List IndexTargetTable) (hc : Choices ord kord mord srt)
    (schemas : List TableSchema) (scopes : List Scope) (out : List IndexTarget)
    (h : suggest ord kord mord srt schemas scopes = .ok out) (s : Scope) (hs : s ∈ scopes)
    (t : Name) (sch : TableSchema) (ht : schemaMap schemas t = some sch)
    (cols : List Name) (hne : cols ≠ []) (hnd : cols.Nodup)
    (hu : ∀ path m, buildTableFields kord (schemaMap schemas) path s = .ok m →
      ∀ n ∈ cols, Listed m t n .condition)
    (hk : ∃ n ∈ cols, n ∉ sch.primaryKeys) : newIndexTarget t cols ∈ out := by
  obtain ⟨out', ho, hmem⟩ := C17_suggest_exact ord kord mord srt hc schemas scopes
    (suggest_ok_scopes h)
  rw [h] at ho
  cases ho
  obtain ⟨i, hi⟩ := List.getElem?_of_mem hs
  obtain ⟨m, hm⟩ := suggest_ok_scopes h i s hi
  have hreal := C17_fields_real kord hc.key _ _ s m hm
  have hl : ∀ n ∈ cols, ∃ e ∈ m, e.1 = t ∧ ∃ c ∈ e.2, c.name = n ∧ c.type = .condition :=
    fun n hn => (hu _ m hm n hn).mem
  obtain ⟨n0, hn0, hk0⟩ := hk
  obtain ⟨e, he, he1, _⟩ := hl n0 hn0
  have hl' : ∀ n ∈ cols, ∃ c, c ∈ e.2 ∧ c.name = n ∧ c.type = .condition := by
    intro n hn
    obtain ⟨e', he', he1', c, hc', r⟩ := hl n hn
    have : e' = e := List.inj_on_of_nodup_map hreal.1 he' he (he1'.trans he1.symm)
    exact ⟨c, this ▸ hc', r⟩
  have hchoose : ∃ l : List FieldColumn, l.map (·.name) = cols ∧
      ∀ c ∈ l, c ∈ e.2 ∧ c.type = .condition := by
    clear hne hnd hu hn0 hl
    induction cols with
    | nil => exact ⟨[], rfl, by simp⟩
    | cons n ns ih =>
      obtain ⟨l, h1, h2⟩ := ih (fun n hn => hl' n (by simp [hn]))
      obtain ⟨c, hc1, hc2, hc3⟩ := hl' n (by simp)
      refine ⟨c :: l, by simp [h1, hc2], fun d hd => ?_⟩
      rcases List.mem_cons.mp hd with rfl | hd
      · exact ⟨hc1, hc3⟩
      · exact h2 d hd
  obtain ⟨l, hl1, hl2⟩ := hchoose
  refine (hmem _).mpr ⟨i, s, m, hi, hm, e, he, sch, by rw [he1]; exact ht, l, ⟨?_, ?_, ?_, .inl ?_⟩,
    ?_, by rw [he1, hl1]⟩
  · rintro rfl
    exact hne hl1.symm
  · rw [← hl1] at hnd
    exact hnd.of_map _
  · exact fun c hc => (hl2 c hc).1
  · exact fun c hc => (hl2 c hc).2
  · rw [← hl1] at hn0
    obtain ⟨c, hc', rfl⟩ := List.mem_map.mp hn0
    exact ⟨c, hc', hk0⟩

/-- **C67 for whole queries.** Take any columns of a table that a query uses in conditions, at any
depth, in any order and without repetition. An index on them is suggested, unless they all belong to
the primary key. -/
theorem C67_conditions_suggested (ord : Order) (kord : KeyOrder) (mord : EntryOrder)
    (srt : List IndexTargetTable → List IndexTargetTable) (hc : Choices ord kord mord srt)
    (schemas : List TableSchema) (scopes : List Scope) (out : List IndexTarget)
    (h : suggest ord kord mord srt schemas scopes = .ok out) (s : Scope) (hs : s ∈ scopes)
    (hp : OnlyPlainUses s) (t : Name) (sch : TableSchema) (ht : schemaMap schemas t = some sch)
    (cols : List Name) (hne : cols ≠ []) (hnd : cols.Nodup)
    (hu : ∀ n ∈ cols, Uses (schemaMap schemas) s t n .condition)
    (hk : ∃ n ∈ cols, n ∉ sch.primaryKeys) : newIndexTarget t cols ∈ out :=
  listed_suggested ord kord mord srt hc schemas scopes out h s hs t sch ht cols hne hnd
    (fun _ m hm n hn => C67_used_is_listed kord hc.key _ _ s hp m hm t n _ (hu n hn)) hk

/-! ## Examples -/

/-- `SELECT u.name FROM users u JOIN (SELECT tasks.user_id FROM tasks WHERE user_id = 1) AS x
ON x.user_id = u.id WHERE EXISTS (SELECT id FROM tasks WHERE tasks.id = u.id AND user_id > 3)` -/
def exNested : Scope :=
  .mk (n "<root>")
    [fld [col "u" "name" .reference], fld [col "x" "user_id" .condition, col "u" "id" .condition],
      fld [col "" "" .subquery]]
    [.mk (n "<field0>") [fld [col "" "id" .reference],
        fld [col "tasks" "id" .condition, col "u" "id" .condition, col "" "user_id" .condition]] []
      [{ name := n "tasks" }] []]
    [{ asName := n "u", name := n "users" }, { asName := n "x", name := n "<select0>" }]
    [.mk (n "<select0>") [fld [col "tasks" "user_id" .reference], fld [col "" "user_id" .condition]] []
      [{ name := n "tasks" }] []]

/-- the EXISTS subquery -/
def exField : Scope :=
  .mk (n "<field0>") [fld [col "" "id" .reference],
        fld [col "tasks" "id" .condition, col "u" "id" .condition, col "" "user_id" .condition]] []
      [{ name := n "tasks" }] []

theorem exInside {x : Scope} (h : Inside x exNested) :
    x = exNested ∨ x ∈ exNested.subScopes ∨ x ∈ exNested.fieldScopes := by
  cases h with
  | here => exact .inl rfl
  | sub hy hx =>
    simp only [exNested, Scope.subScopes, List.mem_singleton] at hy
    subst hy
    cases hx with
    | here => exact .inr (.inl (by simp [exNested, Scope.subScopes]))
    | sub h _ => simp [Scope.subScopes] at h
    | field h _ => simp [Scope.fieldScopes] at h
  | field hy hx =>
    simp only [exNested, Scope.fieldScopes, List.mem_singleton] at hy
    subst hy
    cases hx with
    | here => exact .inr (.inr (by simp [exNested, Scope.fieldScopes]))
    | sub h _ => simp [Scope.subScopes] at h
    | field h _ => simp [Scope.fieldScopes] at h

example : OnlyPlainUses exNested := by
  intro x hx
  rcases exInside hx with rfl | h | h
  · simp [exNested, Scope.fields, fld, col, IsUse]
  · simp only [exNested, Scope.subScopes, List.mem_singleton] at h
    subst h
    simp [Scope.fields, fld, col, IsUse]
  · simp only [exNested, Scope.fieldScopes, List.mem_singleton] at h
    subst h
    simp [Scope.fields, fld, col, IsUse]

example : SubsNamed exNested := by
  intro x hx
  rcases exInside hx with rfl | h | h
  · simp [exNested, Scope.subScopes, Scope.tables, Scope.name]
  · simp only [exNested, Scope.subScopes, List.mem_singleton] at h
    subst h
    simp [Scope.subScopes]
  · simp only [exNested, Scope.fieldScopes, List.mem_singleton] at h
    subst h
    simp [Scope.subScopes]

theorem exField_mem : exField ∈ exNested.fieldScopes := by
  simp [exNested, exField, Scope.fieldScopes]

/-- from the EXISTS subquery into the outer query -/
example : Uses (schemaMap exSchemas) exNested (n "users") (n "id") .condition := by
  refine ⟨exField, .field exField_mem .here,
    fld [col "tasks" "id" .condition, col "u" "id" .condition, col "" "user_id" .condition],
    by simp [exField, Scope.fields], col "u" "id" .condition, by simp [fld],
    by simp [IsUse, col], rfl, .inr ⟨rfl, exNested, .here, exField_mem, ?_, ?_, ?_, ?_, ?_, ?_⟩⟩
  · decide +kernel
  · constructor
    · exact ⟨{ asName := n "u", name := n "users" }, by simp [exNested, Scope.tables], by decide +kernel⟩
    · decide +kernel
  · exact ⟨_, rfl, by decide +kernel⟩
  · intro x hx
    simp only [exNested, Scope.subScopes, List.mem_singleton] at hx
    subst hx
    decide +kernel
  · decide +kernel
  · intro x hx
    simp [exField, Scope.subScopes, Scope.fieldScopes] at hx

/-- an unqualified use in the EXISTS subquery -/
example : Uses (schemaMap exSchemas) exNested (n "tasks") (n "user_id") .condition := by
  refine ⟨exField, .field exField_mem .here,
    fld [col "tasks" "id" .condition, col "u" "id" .condition, col "" "user_id" .condition],
    by simp [exField, Scope.fields], col "" "user_id" .condition, by simp [fld],
    by simp [IsUse, col], rfl, .inl (.own ⟨⟨{ name := n "tasks" }, by simp [exField, Scope.tables], rfl⟩,
      ⟨_, rfl, by decide +kernel⟩, ?_, .inr ⟨by decide +kernel, ?_, ?_⟩⟩)⟩
  · intro x hx; simp [exField, Scope.subScopes, Scope.fieldScopes] at hx
  · intro T hT _
    simp only [exField, Scope.tables, List.mem_singleton] at hT
    subst hT
    rfl
  · intro x hx; simp [exField, Scope.subScopes, Scope.fieldScopes] at hx

/-- through the FROM subquery: `x.user_id` in ON -/
example : Uses (schemaMap exSchemas) exNested (n "tasks") (n "user_id") .condition := by
  refine ⟨exNested, .here, fld [col "x" "user_id" .condition, col "u" "id" .condition],
    by simp [exNested, Scope.fields], col "x" "user_id" .condition, by simp [fld],
    by simp [IsUse, col], rfl, .inl (.derived (y := .mk (n "<select0>")
      [fld [col "tasks" "user_id" .reference], fld [col "" "user_id" .condition]] []
      [{ name := n "tasks" }] []) (f := fld [col "tasks" "user_id" .reference])
      (u := col "tasks" "user_id" .reference) (by simp [exNested, Scope.subScopes]) ?_ ?_
      (by decide +kernel) (by decide +kernel)
      (.inl ⟨by decide +kernel, ⟨⟨{ asName := n "x", name := n "<select0>" },
        by simp [exNested, Scope.tables], by decide +kernel⟩, by decide +kernel⟩, ?_⟩)
      (by simp [fld]) (by simp [IsUse, col]) (.own ⟨⟨{ name := n "tasks" }, by simp [Scope.tables], rfl⟩,
        ⟨_, rfl, by decide +kernel⟩, ?_, .inl ⟨by decide +kernel, ⟨⟨{ name := n "tasks" },
          by simp [Scope.tables], by decide +kernel⟩, ?_⟩, ?_⟩⟩))⟩
  all_goals try (intro x hx; simp [Scope.subScopes, Scope.fieldScopes] at hx; done)
  · intro x hx _
    simpa [exNested, Scope.subScopes] using hx
  · intro x hx
    simp only [exNested, Scope.fieldScopes, List.mem_singleton] at hx
    subst hx
    decide +kernel
  · intro x hx
    simp only [exNested, Scope.fieldScopes, List.mem_singleton] at hx
    subst hx
    decide +kernel
  · decide +kernel

example : suggest idOrder idKeys idEntries sortT exSchemas [exNested] =
    .ok [newIndexTarget (n "tasks") [n "user_id"], newIndexTarget (n "tasks") [n "id", n "user_id"],
      newIndexTarget (n "tasks") [n "user_id", n "id"],
      newIndexTarget (n "users") [n "id", n "name"]] := by decide +kernel

end Verif.Fields
