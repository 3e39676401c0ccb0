import Verif.Fields.Uses
/-!
# C67: uses of columns of the query around a subquery

A column written in a subquery may belong to the query around it: from a subquery in an expression, with or
without qualifier, directly or through a FROM subquery there; and from a LATERAL subquery, to what stands
before it in FROM.
-/
namespace Verif.Fields
open Verif.Index Verif.Lib Verif.Builder Verif.Builder.Spec Spec

/-! ## Specification -/

/-- The query without its expression subqueries and with the first `k` FROM subqueries only: what a subquery
sees of the query around it. -/
def before (s : Scope) (k : Nat) : Scope := .mk s.name s.fields [] s.tables (s.subScopes.take k)

/-- Nothing in the FROM of `y` can be meant by `c`. -/
def NotCaptured (db : Name → Option TableSchema) (y : Scope) (c : FieldColumn) : Prop :=
  (c.table ≠ [] ∧ (∀ T ∈ y.tables, refName T ≠ c.table ∧ T.name ≠ c.table) ∧
    ∀ x ∈ y.subScopes ++ y.fieldScopes, x.name ≠ c.table) ∨
  (c.table = [] ∧ (∀ T ∈ y.tables, ¬Real db T.name c.name) ∧
    ∀ x ∈ y.subScopes ++ y.fieldScopes, ¬HasStar x.fields ∧ ∀ f ∈ x.fields, label f ≠ c.name)

/-- No two different tables are called alike. -/
def OneName (s : Scope) : Prop := ∀ T ∈ s.tables, ∀ T' ∈ s.tables, refName T = refName T' → T.name = T'.name

/-- In the subquery `y` of `s`, the column use `c` means column `n` of the database table `t`, as it would in
`s`: `y` stands in an expression, or in FROM after LATERAL (then `c` is qualified). -/
def OuterMeans (db : Name → Option TableSchema) (s y : Scope) (c : FieldColumn) (t n : Name) : Prop :=
  NotCaptured db y c ∧
  ((y ∈ s.fieldScopes ∧ OneName s ∧ Means db (before s s.subScopes.length) c t n) ∨
   (∃ k, s.subScopes[k]? = some y ∧ (∀ T ∈ s.tables, T.name = y.name → T.isLateral = true) ∧
    c.table ≠ [] ∧ Means db (before s k) c t n))

/-- The query, or a query nested in it at any depth, has a subquery that uses column `n` of table `t`, read by
the query around the subquery, in a place of type `ty`. -/
def OuterUses (db : Name → Option TableSchema) (s : Scope) (t n : Name) (ty : FieldType) : Prop :=
  ∃ p y, Inside p s ∧ (y ∈ p.fieldScopes ∨ y ∈ p.subScopes) ∧ ∃ f ∈ y.fields, ∃ c ∈ f.columns, IsUse c ∧
    c.type = ty ∧ OuterMeans db p y c t n

/-! ## Lemmas -/

section
variable {ord : KeyOrder} {db : Name → Option TableSchema}

theorem calcSubs_nodup (ss : List Scope) : ∀ {path : List Nat} {k : Nat} {ext : OutMap}
    {tables : List Table} {i j : Info}, calcSubs ord db path k ext tables ss i = .ok j →
    (keys i.asToName).Nodup → (keys j.asToName).Nodup := by
  induction ss with
  | nil =>
    intro path k ext tables i j h hn
    simp only [calcSubs, Except.ok.injEq] at h
    exact h ▸ hn
  | cons s ss ih =>
    intro path k ext tables i j h hn
    simp only [calcSubs] at h
    split at h
    · cases h
    · split at h
      · cases h
      · exact ih h (keys_mapSet_nodup _ _ _ hn)

theorem newInfo_nodup (tables : List Table) (ext : OutMap) : (keys (newInfo db tables ext).asToName).Nodup := by
  have h1 : ∀ (ks : List Name) (m : List (Name × Name)), (keys m).Nodup →
      (keys (ks.foldl (fun m k => mapSet k k m) m)).Nodup := by
    intro ks
    induction ks with
    | nil => intro m h; exact h
    | cons k ks ih => intro m h; exact ih _ (keys_mapSet_nodup _ _ _ h)
  have h2 : ∀ (ts : List Table) (m : List (Name × Name)), (keys m).Nodup →
      (keys (ts.foldl (fun m t => mapSet t.asOrName t.name m) m)).Nodup := by
    intro ts
    induction ts with
    | nil => intro m h; exact h
    | cons k ks ih => intro m h; exact ih _ (keys_mapSet_nodup _ _ _ h)
  exact h2 _ _ (h1 _ _ (by simp [keys]))

theorem visible_nodup (i : Info) (h : (keys i.asToName).Nodup) : (keys (getVisibleColumns i)).Nodup := by
  unfold getVisibleColumns keys at *
  revert h
  induction i.asToName with
  | nil => simp
  | cons p ps ih =>
    intro h
    rw [List.map_cons, List.nodup_cons] at h
    rw [List.filterMap_cons]
    have := ih h.2
    cases hg : mapGet p.2 i.internalCols with
    | none => simpa using this
    | some cols =>
      simp only [Option.map_some, List.map_cons, List.nodup_cons]
      refine ⟨?_, this⟩
      intro hm
      apply h.1
      obtain ⟨q, hq, e⟩ := List.mem_map.mp hm
      obtain ⟨r, hr, e'⟩ := List.mem_filterMap.mp hq
      obtain ⟨w, _, rfl⟩ := Option.map_eq_some_iff.mp e'
      exact List.mem_map.mpr ⟨r, hr, e⟩

theorem assign_get {a b : OutMap} (hn : (keys b).Nodup) {k : Name} {v : List OutputCol}
    (h : mapGet k b = some v) : mapGet k (assign a b) = some v := by
  unfold assign
  have keep : ∀ (b : OutMap) (a : OutMap), k ∉ keys b →
      mapGet k (b.foldl (fun m p => mapSet p.1 p.2 m) a) = mapGet k a := by
    intro b
    induction b with
    | nil => intro a _; rfl
    | cons p ps ih =>
      intro a hk
      simp only [keys, List.map_cons, List.mem_cons, not_or] at hk
      rw [List.foldl_cons, ih _ hk.2, mapGet_mapSet, if_neg hk.1]
  induction b generalizing a with
  | nil => simp [mapGet] at h
  | cons p ps ih =>
    obtain ⟨k', v'⟩ := p
    simp only [keys, List.map_cons, List.nodup_cons] at hn
    rw [List.foldl_cons]
    simp only [mapGet] at h
    by_cases hk : k = k'
    · subst hk
      simp only [if_true, Option.some.injEq] at h
      rw [keep _ _ hn.1, mapGet_mapSet, if_pos rfl, h]
    · simp only [hk, if_false] at h
      exact ih hn.2 h

/-- The run of a FROM subquery within the run of the query: what stands before it is known. -/
theorem calcSubs_at (hord : AnyKeyOrder ord) (ss : List Scope) : (∀ y ∈ ss, OnlyPlainUses y) →
    ∀ {path : List Nat} {k : Nat} {ext : OutMap} {tables : List Table} {i j : Info}, MapRC i.refFields →
    calcSubs ord db path k ext tables ss i = .ok j → ∀ {q : Nat} {y : Scope}, ss[q]? = some y →
    ∃ i' T p cols new, calcSubs ord db path k ext tables (ss.take q) i = .ok i' ∧
      T ∈ tables ∧ T.name = y.name ∧
      calcRefs ord db p (if T.isLateral then assign ext (getVisibleColumns i') else ext) y = .ok (cols, new) ∧
      ∀ t n ty, Listed new t n ty → Listed j.refFields t n ty := by
  induction ss with
  | nil => intro _ path k ext tables i j _ _ q y hq; simp at hq
  | cons s ss ih =>
    intro hs path k ext tables i j hi h q y hq
    simp only [calcSubs] at h
    split at h
    · cases h
    · next t hfind =>
      split at h
      · cases h
      · next cols new hc =>
        have hnew : MapRC new := (calcRefs_good s (textGood_of (hs s (by simp))) (OutGood.triv _) hc).2
        have hrest := fun y hy => hs y (List.mem_cons_of_mem s hy)
        have hi' : MapRC (addSubqueryInfo (ord (path ++ [4, k]) (keys new)) s.name (refName t) cols new i).refFields :=
          FieldsGood.addFields hi hnew _
        rw [asOrName_eq] at h
        obtain ⟨a, b, c⟩ := calcSubs_listed hord ss hrest hi' h
        cases q with
        | zero =>
          simp only [List.getElem?_cons_zero, Option.some.injEq] at hq
          subst hq
          refine ⟨i, t, _, cols, new, by simp [calcSubs], List.mem_reverse.mp (List.mem_of_find?_eq_some hfind),
            by simpa using List.find?_some hfind, hc, fun t n ty hl => b t n ty ?_⟩
          exact listed_addFields hi hnew hl ((hord _ _).mem_iff.mpr hl.key)
        | succ q =>
          simp only [List.getElem?_cons_succ] at hq
          obtain ⟨i', T, p, cols', new', r1, r2⟩ := ih hrest hi' h hq
          refine ⟨i', T, p, cols', new', ?_, r2⟩
          simp only [List.take_succ_cons, calcSubs, hfind, hc]
          rw [asOrName_eq]
          exact r1

/-- The run of the `k`-th FROM subquery in the run of a query. -/
theorem calcRefs_at (hord : AnyKeyOrder ord) (s : Scope) (hs : OnlyPlainUses s) {path : List Nat}
    {ext : OutMap} {outs : List OutputCol} {m : FieldMap}
    (h : calcRefs ord db path ext s = .ok (outs, m)) {q : Nat} {y : Scope} (hq : s.subScopes[q]? = some y) :
    ∃ i' T p cols new, calcSubs ord db path 0 ext s.tables (s.subScopes.take q) (newInfo db s.tables ext) = .ok i' ∧
      T ∈ s.tables ∧ T.name = y.name ∧
      calcRefs ord db p (if T.isLateral then assign ext (getVisibleColumns i') else ext) y = .ok (cols, new) ∧
      ∀ t n ty, Listed new t n ty → Listed m t n ty := by
  obtain ⟨name, fields, fieldScopes, tables, subScopes⟩ := s
  simp only [calcRefs] at h
  split at h
  · cases h
  · next i1 hi1 =>
    obtain ⟨a1, a2, a3⟩ := calcSubs_listed hord subScopes (fun y hy => hs.sub hy)
      (i := newInfo db tables ext) (by intro p hp; simp [newInfo] at hp) hi1
    obtain ⟨i', T, p, cols, new, r1, r2, r3, r4, r5⟩ := calcSubs_at hord subScopes (fun y hy => hs.sub hy)
      (i := newInfo db tables ext) (by intro p hp; simp [newInfo] at hp) hi1 hq
    split at h
    · cases h
    · next i2 hi2 =>
      obtain ⟨b1, b2, b3⟩ := calcFieldScopes_listed hord fieldScopes (fun y hy => hs.field hy) a1 hi2
      split at h
      · cases h
      · next outs1 m1 stars hf =>
        obtain ⟨c1, c2⟩ := fieldLoop_listed _ _ _ (hs _ .here) _ _ b1 hf
        split at h
        · cases h
        · cases h
          exact ⟨i', T, p, cols, new, r1, r2, r3, r4, fun t n ty hl => c1 _ _ _ (b2 _ _ _ (r5 t n ty hl))⟩

theorem before_plain {s : Scope} (hs : OnlyPlainUses s) (k : Nat) : OnlyPlainUses (before s k) := by
  intro x hx
  cases hx with
  | here => exact hs s .here
  | sub hy h => exact hs x (.sub (List.mem_of_mem_take hy) h)
  | field hy h => simp [before, Scope.fieldScopes] at hy

/-- nothing in `y` answers to a qualifier it does not have -/
theorem captured_qualified {y : Scope} {ext : OutMap} {path : List Nat} {j1 j2 : Info}
    (g1 : calcSubs ord db path 0 ext y.tables y.subScopes (newInfo db y.tables ext) = .ok j1)
    (g2 : calcFieldScopes ord db path 0 (getVisibleColumns j1) y.fieldScopes j1 = .ok j2) {a : Name}
    (hyT : ∀ T ∈ y.tables, refName T ≠ a ∧ T.name ≠ a) (hyS : ∀ x ∈ y.subScopes ++ y.fieldScopes, x.name ≠ a)
    {cols : List OutputCol} (hext : mapGet a ext = some cols) :
    getTableColsFromAsName j2 ext a = .ok cols := by
  obtain ⟨b1, b2, _⟩ := calcSubs_get _ g1
  obtain ⟨d1, d2, _⟩ := calcFieldScopes_get _ g2
  have hya : mapGet a j2.asToName = some a := by
    rw [d2 _ (fun x hx => hyS x (List.mem_append_right _ hx))]
    refine b2 _ _ ?_ (fun T hT e => absurd e (hyT T hT).1)
    refine foldl_alias_get _ _ _ _ (fun T hT e => absurd e (hyT T hT).1) (.inl ?_)
    exact foldl_self_get _ _ _ (.inr (mapGet_key _ _ _ hext))
  have hyn : mapGet a j2.internalCols = none := by
    rw [d1 _ (fun x hx => hyS x (List.mem_append_right _ hx)),
      b1 _ (fun x hx => hyS x (List.mem_append_left _ hx))]
    cases hg : mapGet a (newInfo db y.tables ext).internalCols with
    | none => rfl
    | some l =>
      exfalso
      obtain ⟨hnil, hsound⟩ := (brc_ok db y.tables).sound _ l hg
      cases l with
      | nil => exact hnil rfl
      | cons o os =>
        obtain ⟨_, _, T', hT', e⟩ := hsound o (by simp)
        exact (hyT T' hT').2 e
  simp only [getTableColsFromAsName, hya, getTableColsFromName, hyn, hext]

/-- nothing in `y` has a column it does not have -/
theorem captured_plain (hord : AnyKeyOrder ord) {y : Scope} (hy : OnlyPlainUses y) {ext : OutMap}
    {path : List Nat} {j1 j2 : Info}
    (g1 : calcSubs ord db path 0 ext y.tables y.subScopes (newInfo db y.tables ext) = .ok j1)
    (g2 : calcFieldScopes ord db path 0 (getVisibleColumns j1) y.fieldScopes j1 = .ok j2) {x : Name}
    (hT : ∀ T ∈ y.tables, ¬Real db T.name x)
    (hS : ∀ z ∈ y.subScopes ++ y.fieldScopes, ¬HasStar z.fields ∧ ∀ f ∈ z.fields, label f ≠ x)
    (ks : List Name) : getColumnInfosFrom ks j2.internalCols x = none := by
  cases h : getColumnInfosFrom ks j2.internalCols x with
  | none => rfl
  | some r =>
    exfalso
    obtain ⟨k, l, o, hg, ho, -⟩ := getColumnInfosFrom_some h
    have hon : x = o.name := by simpa using List.find?_some ho
    have hom := List.mem_of_find?_eq_some ho
    obtain ⟨_, _, b3, _⟩ := calcSubs_get _ g1
    obtain ⟨_, _, d3⟩ := calcFieldScopes_get _ g2
    have bad : ∀ z ∈ y.subScopes ++ y.fieldScopes, OnlyPlainUses z → ∀ p e new,
        calcRefs ord db p e z = .ok (l, new) → False := by
      intro z hz hpz p e new hrun
      obtain ⟨_, _, _, _, _, _, _, hstar, _⟩ := calcRefs_run hord z hpz hrun
      obtain ⟨f, hf, e⟩ := hstar (hS z hz).1 o hom
      exact (hS z hz).2 f hf (e.trans hon.symm)
    rcases d3 k l hg with hg1 | ⟨z, hz, _, p, e, new, hrun⟩
    · rcases b3 k l hg1 with hg0 | ⟨z, hz, _, p, e, new, hrun⟩
      · obtain ⟨_, r2, T, hTm, r3⟩ := ((brc_ok db y.tables).sound k l hg0).2 o hom
        exact hT T hTm (by rw [r3, hon]; exact r2)
      · exact bad z (List.mem_append_left _ hz) (hy.sub hz) p e new hrun
    · exact bad z (List.mem_append_right _ hz) (hy.field hz) p e new hrun

theorem visible_inv {i : Info} {a : Name} {cols : List OutputCol} (h : mapGet a (getVisibleColumns i) = some cols) :
    ∃ k, mapGet k i.internalCols = some cols := by
  have hm : (a, cols) ∈ getVisibleColumns i := by
    revert h
    induction getVisibleColumns i with
    | nil => intro h; simp [mapGet] at h
    | cons p ps ih =>
      obtain ⟨k, v⟩ := p
      intro h
      simp only [mapGet] at h
      by_cases hk : a = k
      · simp only [hk, if_true, Option.some.injEq] at h
        simp [hk, h]
      · simp only [hk, if_false] at h
        exact List.mem_cons_of_mem _ (ih h)
  obtain ⟨q, _, e⟩ := List.mem_filterMap.mp hm
  obtain ⟨w, hw, e'⟩ := Option.map_eq_some_iff.mp e
  cases e'
  exact ⟨q.2, hw⟩

end

/-- **C67, outer uses.** When a query resolves, every column of a database table of the query around a
subquery that the subquery uses (in an expression, qualified or not, directly or through FROM subqueries; or
qualified after LATERAL) is listed under that table; and as a condition if it is used in a condition. -/
theorem C67_outer_is_listed (ord : KeyOrder) (hord : AnyKeyOrder ord) (db : Name → Option TableSchema)
    (path : List Nat) (s : Scope) (hs : OnlyPlainUses s) (m : FieldMap)
    (h : buildTableFields ord db path s = .ok m) (t n : Name) (ty : FieldType)
    (hu : OuterUses db s t n ty) : Listed m t n ty := by
  simp only [buildTableFields] at h
  split at h
  · cases h
  · next outs m' hrun =>
    cases h
    obtain ⟨p, y, hp, hy0, f, hf, c, hc, hcu, rfl, hcap, ho⟩ := hu
    obtain ⟨pp, e, o, nn, r1, r2⟩ := inside_run hord hp hs hrun
    have hpp := hs.inside hp
    refine r2 _ _ _ ?_
    rcases ho with ⟨hy, hone, hm⟩ | ⟨k, hk, hlat, hne, hm⟩
    · obtain ⟨i1, i2, q1, q2, _, _, q5, _⟩ := calcRefs_run hord p hpp r1
      obtain ⟨py, cols, new, u1, u2⟩ := q5 y hy
      obtain ⟨j1, j2, v1, v2, v3, _⟩ := calcRefs_run hord y (hpp.field hy) u1
      have hmeant : Meant (before p p.subScopes.length) i1 c t n :=
        means_meant hord hm (before_plain hpp _) (path := pp) (ext := e) (i1 := i1) (i2 := i1)
          (by simpa [before, Scope.tables, Scope.subScopes] using q1)
          (by simp [before, Scope.fieldScopes, calcFieldScopes])
      refine u2 _ _ _ (v3 f hf c hc hcu _ _ ?_)
      intro pc cis hcis
      simp only [getColumnReferenceColumnInfos, hcu.1, hcu.2, if_false] at hcis
      rcases hmeant with ⟨hne, k, cs, oc, h1, h2, h3, h4⟩ | ⟨he, ⟨k, cs, oc, ⟨T, hT, rfl⟩, h1, h2⟩, hall⟩
      · rcases hcap with ⟨_, hyT, hyS⟩ | ⟨he, _⟩
        · have := captured_qualified v1 v2 hyT hyS (mapGet_visible h1 h2)
          simp only [hne, if_false, getReferencingColumnInfos, this, h3, Except.ok.injEq] at hcis
          rw [← hcis]; exact h4
        · exact absurd he hne
      · rcases hcap with ⟨hne, _⟩ | ⟨_, hyT, hyS⟩
        · exact absurd he hne
        · have hnone := captured_plain hord (hpp.field hy) v1 v2 hyT hyS
          simp only [he, if_true, getColumnInfos, hnone] at hcis
          have hT' : T ∈ p.tables := hT
          obtain ⟨a1, a2, _⟩ := calcSubs_get _ q1
          have hal : mapGet (refName T) i1.asToName = some T.name :=
            a2 _ _ (foldl_alias_get _ _ _ _ (fun T' hT'' e => hone T' hT'' T hT' e) (.inr ⟨T, hT', rfl⟩))
              (fun T' hT'' e => hone T' hT'' T hT' e)
          have hv := mapGet_visible hal h1
          obtain ⟨r, hr⟩ := getColumnInfosFrom_of (ks := ord (pc ++ [1]) (keys (getVisibleColumns i1)))
            ((hord _ _).mem_iff.mpr (mapGet_key _ _ _ hv)) hv h2
          simp only [hr, Except.ok.injEq] at hcis
          obtain ⟨a, cs', o', e1, e2, rfl⟩ := getColumnInfosFrom_some hr
          obtain ⟨k', e3⟩ := visible_inv e1
          rw [← hcis]
          exact hall k' cs' o' e3 e2
    · obtain ⟨i', T, py, cols, new, u0, hT, hTn, u1, u2⟩ := calcRefs_at hord p hpp r1 hk
      have hym : y ∈ p.subScopes := List.mem_of_getElem? hk
      rw [if_pos (hlat T hT hTn)] at u1
      obtain ⟨j1, j2, v1, v2, v3, _⟩ := calcRefs_run hord y (hpp.sub hym) u1
      have hmeant : Meant (before p k) i' c t n :=
        means_meant hord hm (before_plain hpp _) (path := pp) (ext := e) (i1 := i') (i2 := i')
          (by simpa [before, Scope.tables, Scope.subScopes] using u0)
          (by simp [before, Scope.fieldScopes, calcFieldScopes])
      refine u2 _ _ _ (v3 f hf c hc hcu _ _ ?_)
      intro pc cis hcis
      simp only [getColumnReferenceColumnInfos, hcu.1, hcu.2, if_false] at hcis
      rcases hmeant with ⟨_, k', cs, oc, h1, h2, h3, h4⟩ | ⟨he, _⟩
      · rcases hcap with ⟨_, hyT, hyS⟩ | ⟨he, _⟩
        · have hv := assign_get (a := e) (visible_nodup i' (calcSubs_nodup _ u0 (newInfo_nodup _ _)))
            (mapGet_visible h1 h2)
          have := captured_qualified v1 v2 hyT hyS hv
          simp only [hne, if_false, getReferencingColumnInfos, this, h3, Except.ok.injEq] at hcis
          rw [← hcis]; exact h4
        · exact absurd he hne
      · exact absurd he hne

/-- **C67 for whole queries, outer uses included.** Take any columns of a table that a query uses in conditions,
directly or from subqueries around which it stands, in any order and without repetition. An index on them is
suggested, unless they all belong to the primary key. -/
theorem C67_outer_conditions_suggested (ord : Order) (kord : KeyOrder) (mord : EntryOrder)
    (srt : List IndexTargetTable → List IndexTargetTable) (hc : Choices ord kord mord srt)
    (schemas : List TableSchema) (scopes : List Scope) (out : List IndexTarget)
    (h : suggest ord kord mord srt schemas scopes = .ok out) (s : Scope) (hs : s ∈ scopes)
    (hp : OnlyPlainUses s) (t : Name) (sch : TableSchema) (ht : schemaMap schemas t = some sch)
    (cols : List Name) (hne : cols ≠ []) (hnd : cols.Nodup)
    (hu : ∀ n ∈ cols, Uses (schemaMap schemas) s t n .condition ∨ OuterUses (schemaMap schemas) s t n .condition)
    (hk : ∃ n ∈ cols, n ∉ sch.primaryKeys) : newIndexTarget t cols ∈ out :=
  listed_suggested ord kord mord srt hc schemas scopes out h s hs t sch ht cols hne hnd
    (fun _ m hm n hn => (hu n hn).elim
      (fun hu => C67_used_is_listed kord hc.key _ _ s hp m hm t n _ hu)
      (fun hu => C67_outer_is_listed kord hc.key _ _ s hp m hm t n _ hu)) hk

/-! ## Examples -/

/-- `(SELECT id FROM tasks WHERE user_id = name)`, where `name` belongs to the query around it -/
def exInner : Scope :=
  .mk (n "<field0>") [fld [col "" "id" .reference], fld [col "" "user_id" .condition, col "" "name" .condition]]
    [] [{ name := n "tasks" }] []

/-- `(SELECT tasks.id FROM tasks WHERE tasks.user_id = u.name)`, after LATERAL -/
def exLateral : Scope :=
  .mk (n "<select0>") [fld [col "tasks" "id" .reference],
    fld [col "tasks" "user_id" .condition, col "u" "name" .condition]] [] [{ name := n "tasks" }] []

/-- `SELECT u.id FROM users u WHERE EXISTS (SELECT id FROM tasks WHERE user_id = name)` -/
def exExists : Scope :=
  .mk (n "<root>") [fld [col "u" "id" .reference], fld [col "" "" .subquery]] [exInner]
    [{ asName := n "u", name := n "users" }] []

/-- `SELECT u.id FROM users u JOIN LATERAL (SELECT tasks.id FROM tasks WHERE tasks.user_id = u.name) x ON true` -/
def exJoin : Scope :=
  .mk (n "<root>") [fld [col "u" "id" .reference]] []
    [{ asName := n "u", name := n "users" }, { asName := n "x", name := n "<select0>", isLateral := true }]
    [exLateral]

/-- without qualifier, from the EXISTS subquery -/
example : OuterUses (schemaMap exSchemas) exExists (n "users") (n "name") .condition := by
  refine ⟨exExists, exInner, .here, .inl (by simp [exExists, Scope.fieldScopes]), _,
    List.mem_cons_of_mem _ List.mem_cons_self, col "" "name" .condition, by simp [fld], by simp [IsUse, col], rfl,
    .inr ⟨rfl, ?_, ?_⟩, .inl ⟨by simp [exExists, Scope.fieldScopes], ?_, .own ⟨⟨{ asName := n "u", name := n "users" },
      by simp [before, exExists, Scope.tables], rfl⟩, ⟨_, rfl, by decide +kernel⟩, ?_, .inr ⟨rfl, ?_, ?_⟩⟩⟩⟩
  · intro T hT
    simp only [exInner, Scope.tables, List.mem_singleton] at hT
    subst hT
    rintro ⟨sch, h1, h2⟩
    have h3 : schemaMap exSchemas (n "tasks") = some sch := h1
    have : ∀ sch ∈ schemaMap exSchemas (n "tasks"), n "name" ∉ sch.columns := by decide +kernel
    exact this sch h3 h2
  · intro x hx; simp [exInner, Scope.subScopes, Scope.fieldScopes] at hx
  · intro T hT T' hT' _
    simp only [exExists, Scope.tables, List.mem_singleton] at hT hT'
    rw [hT, hT']
  · intro x hx; simp [before, exExists, Scope.subScopes, Scope.fieldScopes] at hx
  · intro T hT _
    simp only [before, exExists, Scope.tables, List.mem_singleton] at hT
    rw [hT]
  · intro x hx; simp [before, exExists, Scope.subScopes, Scope.fieldScopes] at hx

/-- from the LATERAL subquery -/
example : OuterUses (schemaMap exSchemas) exJoin (n "users") (n "name") .condition := by
  refine ⟨exJoin, exLateral, .here, .inr (by simp [exJoin, Scope.subScopes]), _,
    List.mem_cons_of_mem _ List.mem_cons_self, col "u" "name" .condition, by simp [fld], by simp [IsUse, col], rfl,
    .inl ⟨by decide +kernel, by decide +kernel, ?_⟩, .inr ⟨0, rfl, by decide +kernel, by decide +kernel,
      .own ⟨⟨{ asName := n "u", name := n "users" },
      by simp [before, exJoin, Scope.tables], rfl⟩, ⟨_, rfl, by decide +kernel⟩, ?_,
      .inl ⟨by decide +kernel, ⟨⟨{ asName := n "u", name := n "users" }, by simp [before, exJoin, Scope.tables],
        by decide +kernel⟩, by decide +kernel⟩, ?_⟩⟩⟩⟩
  · intro x hx; simp [exLateral, Scope.subScopes, Scope.fieldScopes] at hx
  · intro x hx; simp [before, exJoin, Scope.subScopes, Scope.fieldScopes] at hx
  · intro x hx; simp [before, Scope.fieldScopes] at hx

/-- both resolve, and the outer column is suggested -/
example : (∃ out, suggest idOrder idKeys idEntries sortT exSchemas [exExists] = .ok out ∧
      newIndexTarget (n "users") [n "name"] ∈ out) ∧
    ∃ out, suggest idOrder idKeys idEntries sortT exSchemas [exJoin] = .ok out ∧
      newIndexTarget (n "users") [n "name"] ∈ out := by
  have h : ∀ r : Except _ (List IndexTarget), (match r with
      | .ok out => decide (newIndexTarget (n "users") [n "name"] ∈ out)
      | .error (_ : BuildErr Err) => false) = true → ∃ out, r = .ok out ∧ newIndexTarget (n "users") [n "name"] ∈ out := by
    intro r hr
    cases r with
    | ok out => exact ⟨out, rfl, by simpa using hr⟩
    | error e => cases hr
  exact ⟨h _ (by decide +kernel), h _ (by decide +kernel)⟩

end Verif.Fields
