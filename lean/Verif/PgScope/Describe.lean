import Verif.PgScope.Ready
/-!
# The scopes collected describe the query (helper lemmas)
-/
namespace Verif.PgScope
open Verif.Builder Verif.Fields Verif.Lib Verif.PgScope.Spec

variable {norm : Str → Str} {schema : Str}

/-- the part of a place outside FROM -/
def placePart (norm : Str → Str) (schema : Str) (p : Str × FieldType × Expr) : Part :=
  .expr p.1 (citemsE norm schema p.2.1 p.2.2)

/-- the places before FROM -/
def exprPlaces (es : List SelExpr) : List (Str × FieldType × Expr) :=
  es.map fun | .mk e as => (as, .reference, e)

/-- the places of expressions -/
def refPlaces (es : List Expr) : List (Str × FieldType × Expr) := es.map fun e => ([], .reference, e)

/-- the places of LIMIT -/
def limitPlaces : Limit → List (Str × FieldType × Expr)
  | .none => []
  | .mk count offset => [([], .reference, count), ([], .reference, offset)]

theorem places_eq (id : Nat) (orderBy : List Expr) (limit : Limit) (exprs : List SelExpr)
    (tables : List TableExpr) (where_ : Option Expr) (groupBy : List Expr) (having : Option Expr)
    (window : Bool) (distinctOn : List Expr) :
    places norm (.mk id none orderBy limit
      (.clause exprs tables where_ groupBy having window distinctOn)) =
    exprPlaces exprs ++ tables.flatMap (fromPlaces norm) ++
      where_.toList.map (fun e => ([], .condition, e)) ++ refPlaces groupBy ++
      refPlaces having.toList ++ refPlaces orderBy ++ limitPlaces limit := by
  rfl

theorem partsS_eq (id : Nat) (orderBy : List Expr) (limit : Limit) (exprs : List SelExpr)
    (tables : List TableExpr) (where_ : Option Expr) (groupBy : List Expr) (having : Option Expr)
    (window : Bool) (distinctOn : List Expr) :
    partsS norm schema (.mk id none orderBy limit
      (.clause exprs tables where_ groupBy having window distinctOn)) =
    (exprPlaces exprs).map (placePart norm schema) ++ (partsTs norm schema tables ++
      ((where_.toList.map (fun e => (([] : Str), FieldType.condition, e))).map (placePart norm schema) ++
      ((refPlaces groupBy).map (placePart norm schema) ++
      ((refPlaces having.toList).map (placePart norm schema) ++
      ((if window then [.window] else []) ++
      ((refPlaces orderBy).map (placePart norm schema) ++
       (limitPlaces limit).map (placePart norm schema))))))) := by
  have e1 : (exprPlaces exprs).map (placePart norm schema) = partsSEs norm schema exprs := by
    simp only [exprPlaces, partsSEs, List.map_map]
    apply List.map_congr_left
    rintro ⟨e, as⟩ _
    rfl
  have e2 : ∀ es, (refPlaces es).map (placePart norm schema) = partsEs norm schema es := by
    intro es
    simp only [refPlaces, partsEs, List.map_map]
    rfl
  have e3 : ∀ o ty, (o.toList.map (fun e => (([] : Str), ty, e))).map (placePart norm schema) =
      partsO norm schema ty o := by
    intro o ty
    simp only [partsO, List.map_map]
    rfl
  have e4 : (limitPlaces limit).map (placePart norm schema) = partsL norm schema limit := by
    cases limit <;> rfl
  have e5 : (refPlaces having.toList).map (placePart norm schema) =
    partsO norm schema .reference having := e3 having .reference
  rw [partsS, e1, e5, e2, e2, e3, e4]

theorem place_fields (ν : Nat → Str) (ps : List (Str × FieldType × Expr))
    (h : ∀ i ∈ ps.map (placePart norm schema), i.errs = []) :
    (ps.map (placePart norm schema)).flatMap (Part.fields ν) = ps.map (placeField norm schema ν) ∧
      ∀ p ∈ ps, cerr (citemsE norm schema p.2.1 p.2.2) = none := by
  have hc : ∀ p ∈ ps, cerr (citemsE norm schema p.2.1 p.2.2) = none := by
    intro p hp
    have := h _ (List.mem_map.mpr ⟨p, hp, rfl⟩)
    simpa [placePart, Part.errs] using this
  refine ⟨?_, hc⟩
  clear h
  induction ps with
  | nil => rfl
  | cons p ps ih =>
    rw [List.map_cons, List.flatMap_cons, ih fun p hp => hc p (by simp [hp]), List.map_cons]
    simp only [placePart, Part.fields]
    rw [if_pos (hc p (by simp))]
    rfl

theorem table_fields (ν : Nat → Str) (ts : List TableExpr) (hs : ∀ t ∈ ts, Shape t)
    (h : ∀ i ∈ partsTs norm schema ts, i.errs = []) :
    (partsTs norm schema ts).flatMap (Part.fields ν) =
        (ts.flatMap (fromPlaces norm)).map (placeField norm schema ν) ∧
      (∀ p ∈ ts.flatMap (fromPlaces norm), cerr (citemsE norm schema p.2.1 p.2.2) = none) ∧
      ∀ t ∈ ts, terr (titems norm schema t) = none := by
  have hc : ∀ t ∈ ts, terr (titems norm schema t) = none := by
    intro t ht
    have := h _ (List.mem_map.mpr ⟨t, ht, rfl⟩)
    simpa [Part.errs] using this
  refine ⟨?_, ?_, hc⟩
  · clear h
    induction ts with
    | nil => rfl
    | cons t ts ih =>
      have e1 : partsTs norm schema (t :: ts) = .table (titems norm schema t) ::
        partsTs norm schema ts := rfl
      rw [e1, List.flatMap_cons, ih (fun t ht => hs t (by simp [ht])) fun t ht => hc t (by simp [ht]),
        List.flatMap_cons, List.map_append]
      simp only [Part.fields]
      rw [(hs t (by simp)).fields ν (hc t (by simp))]
  · intro p hp
    obtain ⟨t, ht, hp⟩ := List.mem_flatMap.mp hp
    exact (hs t ht).places_err (hc t ht) p hp

theorem select_fields (ν : Nat → Str) {s : Select} (hp : Plain s)
    (h : ∀ i ∈ partsS norm schema s, i.errs = []) :
    (partsS norm schema s).flatMap (Part.fields ν) = (places norm s).map (placeField norm schema ν) ∧
      (∀ p ∈ places norm s, cerr (citemsE norm schema p.2.1 p.2.2) = none) ∧
      ∀ t ∈ fromItems s, terr (titems norm schema t) = none := by
  have hsh := plain_shape hp
  have hn := hp _ (below_refl _)
  cases hn with
  | s id orderBy limit exprs tables where_ groupBy having window distinctOn h1 h2 =>
    rw [partsS_eq] at h
    rw [partsS_eq, places_eq]
    simp only [List.mem_append] at h
    obtain ⟨a1, b1⟩ := place_fields (norm := norm) (schema := schema) ν (exprPlaces exprs)
      fun i hi => h i (.inl hi)
    obtain ⟨a2, b2, c2⟩ := table_fields (norm := norm) (schema := schema) ν tables hsh
      fun i hi => h i (.inr (.inl hi))
    obtain ⟨a3, b3⟩ := place_fields (norm := norm) (schema := schema) ν
      (where_.toList.map fun e => ([], .condition, e)) fun i hi => h i (.inr (.inr (.inl hi)))
    obtain ⟨a4, b4⟩ := place_fields (norm := norm) (schema := schema) ν (refPlaces groupBy)
      fun i hi => h i (.inr (.inr (.inr (.inl hi))))
    obtain ⟨a5, b5⟩ := place_fields (norm := norm) (schema := schema) ν (refPlaces having.toList)
      fun i hi => h i (.inr (.inr (.inr (.inr (.inl hi)))))
    obtain ⟨a7, b7⟩ := place_fields (norm := norm) (schema := schema) ν (refPlaces orderBy)
      fun i hi => h i (.inr (.inr (.inr (.inr (.inr (.inr (.inl hi)))))))
    obtain ⟨a8, b8⟩ := place_fields (norm := norm) (schema := schema) ν (limitPlaces limit)
      fun i hi => h i (.inr (.inr (.inr (.inr (.inr (.inr (.inr hi)))))))
    have hw : window = false := by
      cases window with
      | false => rfl
      | true =>
        have := h .window (.inr (.inr (.inr (.inr (.inr (.inl (by simp)))))))
        simp [Part.errs] at this
    subst hw
    refine ⟨?_, ?_, c2⟩
    · simp only [List.flatMap_append, a1, a2, a3, a4, a5, a7, a8, List.map_append,
        Bool.false_eq_true, if_false, List.flatMap_nil, List.nil_append, List.append_assoc]
    · intro p hp
      simp only [List.mem_append] at hp
      rcases hp with (((((hp | hp) | hp) | hp) | hp) | hp) | hp
      · exact b1 p hp
      · exact b2 p hp
      · exact b3 p hp
      · exact b4 p hp
      · exact b5 p hp
      · exact b7 p hp
      · exact b8 p hp

theorem ptabs_append (ν : Nat → Str) (a b : List Part) (old : List Table) :
    ptabs norm ν (a ++ b) old = ptabs norm ν b (ptabs norm ν a old) := by
  induction a generalizing old with
  | nil => rfl
  | cons i r ih => rw [List.cons_append, ptabs, ptabs, ih]

theorem ptabs_places (ν : Nat → Str) (ps : List (Str × FieldType × Expr)) (old : List Table) :
    ptabs norm ν (ps.map (placePart norm schema)) old = old := by
  induction ps generalizing old with
  | nil => rfl
  | cons p ps ih => rw [List.map_cons, ptabs, ih]; rfl

theorem ptabs_tables (ν : Nat → Str) (ts : List TableExpr) (old : List Table) :
    ptabs norm ν (partsTs norm schema ts) old = match ts.getLast? with
      | none => old
      | some t => (titems norm schema t).flatMap (TItem.tabs norm ν) := by
  induction ts generalizing old with
  | nil => rfl
  | cons t ts ih =>
    have e1 : partsTs norm schema (t :: ts) = .table (titems norm schema t) ::
      partsTs norm schema ts := rfl
    rw [e1, ptabs, ih]
    cases ts with
    | nil => rfl
    | cons a r => rw [List.getLast?_cons_cons, List.getLast?_cons]

theorem select_tabs (ν : Nat → Str) {s : Select} (hp : Plain s)
    (h : ∀ t ∈ fromItems s, terr (titems norm schema t) = none) :
    ptabs norm ν (partsS norm schema s) [] = (lastItem (fromItems s)).flatMap (fromTables norm ν) := by
  have hsh := plain_shape hp
  have hn := hp _ (below_refl _)
  cases hn with
  | s id orderBy limit exprs tables where_ groupBy having window distinctOn h1 h2 =>
    have hw : ∀ old, ptabs norm ν (if window then [Part.window] else []) old = old := by
      intro old
      cases window <;> rfl
    rw [partsS_eq]
    simp only [ptabs_append, ptabs_places, hw, ptabs_tables]
    show _ = (tables.getLast?.toList).flatMap (fromTables norm ν)
    cases hl : tables.getLast? with
    | none => rfl
    | some t =>
      have ht : t ∈ tables := List.mem_of_getLast? hl
      exact ((hsh t ht).tabs ν (h t ht)).trans (List.append_nil _).symm

/-! ## Subqueries -/

theorem unkOf_mem (evs : List Ev) (h : unkOf evs = []) : Ev.unknown ∉ evs := by
  intro hm
  have : Err.unknownNode ∈ unkOf evs := List.mem_filterMap.mpr ⟨_, hm, rfl⟩
  rw [h] at this
  simp at this

theorem mem_unkOf (evs : List Ev) (h : Ev.unknown ∉ evs) : unkOf evs = [] := by
  rw [unkOf, List.filterMap_eq_nil_iff]
  intro e he
  cases e <;> first | rfl | exact absurd he h

/-- a subquery in an expression of a plain select is visited, unless it is in OFFSET or so, or an unknown
node is reported -/
theorem plain_asked {s : Select} (hp : Plain s) (x : Select) (p : Str × FieldType × Expr)
    (h : p ∈ places norm s) (ha : Asks p.2.2 x) :
    (∃ i, (false, i, x) ∈ wsubs s) ∨ .noise .unknown ∈ witemsS s ∨ RemoteSub (.s s) := by
  simp only [mem_wsubs]
  have hsh := plain_shape hp
  have hn := hp _ (below_refl _)
  cases hn with
  | s id orderBy limit exprs tables where_ groupBy having window distinctOn h1 h2 =>
    have hb : ∀ z, z ∈ near (.b (.clause exprs tables where_ groupBy having window distinctOn)) →
        Below (.s (.mk id none orderBy limit
          (.clause exprs tables where_ groupBy having window distinctOn))) z := by
      intro z hz
      exact below_near (y := .b (.clause exprs tables where_ groupBy having window distinctOn))
        (by simp [near]) (below_near hz (below_refl _))
    have hE : ∀ e, Asks e x → (∀ w ∈ witemsE e, w ∈ witemsS (.mk id none orderBy limit
          (.clause exprs tables where_ groupBy having window distinctOn))) →
        Below (.s (.mk id none orderBy limit
          (.clause exprs tables where_ groupBy having window distinctOn))) (.e e) →
        (∃ i, .sub false i (.paren x) ∈ witemsS (.mk id none orderBy limit
          (.clause exprs tables where_ groupBy having window distinctOn))) ∨
        .noise .unknown ∈ witemsS (.mk id none orderBy limit
          (.clause exprs tables where_ groupBy having window distinctOn)) ∨
        RemoteSub (.s (.mk id none orderBy limit
          (.clause exprs tables where_ groupBy having window distinctOn))) := by
      intro e ha h1 h2
      rcases asks_witems e x ha with ⟨i, h⟩ | h | h
      · exact .inl ⟨i, h1 _ h⟩
      · exact .inr (.inl (h1 _ h))
      · exact .inr (.inr (h.up h2))
    have hEs : ∀ es : List Expr, ∀ e ∈ es, ∀ w ∈ witemsE e, w ∈ witemsEs es :=
      fun es e he w hw => (mem_witemsEs _ _).mpr ⟨e, he, hw⟩
    have hSEs : ∀ (es : List SelExpr) e as, .mk e as ∈ es → ∀ w ∈ witemsE e, w ∈ witemsSEs es := by
      intro es e as he w hw
      induction es with
      | nil => simp at he
      | cons y es ih =>
        obtain ⟨y, as'⟩ := y
        rw [witemsSEs]
        rcases List.mem_cons.mp he with he | he
        · cases he
          simp [hw]
        · simp [ih he]
    have hTs : ∀ ts : List TableExpr, ∀ t ∈ ts, ∀ w ∈ witemsT t, w ∈ witemsTs ts := by
      intro ts t ht w hw
      induction ts with
      | nil => simp at ht
      | cons y ts ih =>
        rw [witemsTs]
        rcases List.mem_cons.mp ht with rfl | ht
        · simp [hw]
        · simp [ih ht]
    rw [places_eq] at h
    simp only [List.mem_append] at h
    rcases h with (((((h | h) | h) | h) | h) | h) | h
    · obtain ⟨⟨e, as⟩, he, rfl⟩ := List.mem_map.mp h
      refine hE e ha ?_ (hb _ ?_)
      · intro w hw
        simp [witemsS, witemsClause, hSEs exprs e as he w hw]
      · simp only [near, List.mem_append, List.mem_map]
        exact .inl (.inl (.inl (.inl (.inl ⟨_, he, rfl⟩))))
    · obtain ⟨t, ht, h⟩ := List.mem_flatMap.mp h
      have hw : ∀ w ∈ witemsT t, w ∈ witemsS (.mk id none orderBy limit
          (.clause exprs tables where_ groupBy having window distinctOn)) := by
        intro w hw
        simp [witemsS, witemsClause, hTs tables t ht w hw]
      rcases (hsh t ht).asked x p h ha with ⟨i, h⟩ | h | h
      · exact .inl ⟨i, hw _ h⟩
      · exact .inr (.inl (hw _ h))
      · refine .inr (.inr (h.up (hb _ ?_)))
        simp only [near, List.mem_append, List.mem_map]
        exact .inr ⟨t, ht, rfl⟩
    · obtain ⟨e, he, rfl⟩ := List.mem_map.mp h
      have he := Option.mem_toList.mp he
      cases he
      refine hE e ha ?_ (hb _ ?_)
      · intro w hw
        simp [witemsS, witemsClause, witemsO, hw]
      · simp only [near, List.mem_append]; simp
    · obtain ⟨e, he, rfl⟩ := List.mem_map.mp h
      refine hE e ha ?_ (hb _ ?_)
      · intro w hw
        simp [witemsS, witemsClause, hEs groupBy e he w hw]
      · simp only [near, List.mem_append]; simp [he]
    · obtain ⟨e, he, rfl⟩ := List.mem_map.mp h
      have he := Option.mem_toList.mp he
      cases he
      refine hE e ha ?_ (hb _ ?_)
      · intro w hw
        simp [witemsS, witemsClause, witemsO, hw]
      · simp only [near, List.mem_append]; simp
    · obtain ⟨e, he, rfl⟩ := List.mem_map.mp h
      refine hE e ha ?_ (below_near (y := .e e) (by simp [near, he]) (below_refl _))
      intro w hw
      simp [witemsS, witemsClause, hEs orderBy e he w hw]
    · cases limit with
      | none => simp [limitPlaces] at h
      | mk c o =>
        simp [limitPlaces] at h
        rcases h with rfl | rfl
        · refine hE c ha ?_ (below_near (y := .e c) (by simp [near]) (below_refl _))
          intro w hw
          simp [witemsS, witemsClause, witemsL, hw]
        · obtain ⟨i, h⟩ := asks_below o x ha
          exact .inr (.inr ⟨_, .e o, i, _, below_refl _, by simp [remote], h⟩)

/-- a derived table of a plain select is visited -/
theorem plain_from {s : Select} (hp : Plain s) (x : Select) (t : TableExpr) (ht : t ∈ fromItems s)
    (h : x ∈ fromSubs t) : ∃ i, (true, i, x) ∈ wsubs s := by
  simp only [mem_wsubs]
  obtain ⟨i, h⟩ := (plain_shape hp t ht).walked x h
  refine ⟨i, ?_⟩
  have hTs : ∀ ts : List TableExpr, t ∈ ts → .sub true i (.paren x) ∈ witemsTs ts := by
    intro ts ht
    induction ts with
    | nil => simp at ht
    | cons y ts ih =>
      rw [witemsTs]
      rcases List.mem_cons.mp ht with rfl | ht
      · simp [h]
      · simp [ih ht]
  have hn := hp _ (below_refl _)
  cases hn with
  | s id orderBy limit exprs tables where_ groupBy having window distinctOn h1 h2 =>
    simp [witemsS, witemsClause, hTs tables ht]

/-- the events of the subqueries visited are among the events -/
theorem wsubs_evs {s : Select} {fuel : Nat} (hr : ∀ x ∈ wsubs s, Ready norm schema fuel x.2.2)
    (h : Ev.unknown ∉ (witemsS s).flatMap WItem.evs) :
    .noise .unknown ∉ witemsS s ∧
      ∀ x ∈ wsubs s, Ev.unknown ∉ (witemsS x.2.2).flatMap WItem.evs := by
  constructor
  · intro hm
    exact h (List.mem_flatMap.mpr ⟨_, hm, by simp [WItem.evs]⟩)
  · rintro ⟨d, i, x⟩ hx hm
    have hw := (hr _ hx).walk
    rw [mem_wsubs] at hx
    refine h (List.mem_flatMap.mpr ⟨_, hx, ?_⟩)
    simp only [WItem.evs, walkB, List.mem_append]
    simp only at hw
    rw [hw]
    simp only [List.mem_append]
    have hm' : Ev.unknown ∈ (witemsS x).flatMap WItem.evs := hm
    simp [hm']

theorem describes_den (ν : Nat → Str) {fuel : Nat} {s : Select} (hr : AllReady norm schema fuel s)
    (hp : Plain s) (hnr : ¬RemoteSub (.s s)) (hu : Ev.unknown ∉ (witemsS s).flatMap WItem.evs)
    (he : errsS norm schema s = []) : Describes lastItem norm ν s (den norm schema ν s) := by
  induction hr with
  | mk s hr hs ih =>
    have hrs : ∀ x ∈ wsubs s, Ready norm schema fuel x.2.2 := by
      intro x hx
      cases hs x hx
      assumption
    obtain ⟨hu1, hu2⟩ := wsubs_evs hrs hu
    rw [errsS_eq, List.append_eq_nil_iff] at he
    have he1 : ∀ i ∈ partsS norm schema s, i.errs = [] := List.flatMap_eq_nil_iff.mp he.1
    have he2 : ∀ x ∈ wsubs s, errsS norm schema x.2.2 = [] := List.flatMap_eq_nil_iff.mp he.2
    obtain ⟨f1, f2, f3⟩ := select_fields ν hp he1
    have hd : ∀ x ∈ wsubs s, Describes lastItem norm ν x.2.2 (den norm schema ν x.2.2) := by
      intro x hx
      exact ih x hx (plain_wsubs hp x hx) (fun h => hnr (h.up (wsubs_below s x hx))) (hu2 x hx) (he2 x hx)
    have key : ∀ (l : List (Bool × Nat × Select)) (b : Bool), (∀ x ∈ l, x ∈ wsubs s) →
        List.Forall₂ (Describes lastItem norm ν) (l.filterMap fun x => if x.1 = b then some x.2.2 else none)
          (l.filterMap fun x => if x.1 = b then some (den norm schema ν x.2.2) else none) := by
      intro l b hl
      induction l with
      | nil => exact .nil
      | cons x r ihl =>
        have := ihl fun x hx => hl x (by simp [hx])
        by_cases hb : x.1 = b
        · simp only [List.filterMap_cons, if_pos hb]
          exact .cons (hd x (hl x (by simp))) this
        · simp only [List.filterMap_cons, if_neg hb]
          exact this
    rw [den_eq, f1, select_tabs ν hp f3]
    have e1 : fieldDens norm schema ν (wsubs s) =
        (wsubs s).filterMap fun x => if x.1 = false then some (den norm schema ν x.2.2) else none := by
      refine filterMap_congr' ?_
      rintro ⟨d, i, x⟩ _
      cases d <;> rfl
    rw [e1]
    refine .mk s _ ((wsubs s).filterMap fun x => if x.1 = false then some x.2.2 else none)
      ((wsubs s).filterMap fun x => if x.1 = true then some x.2.2 else none) _ _
      (good_fields ν _ fun p h => ⟨places_plain hp p h, f2 p h⟩) ?_ ?_ (key _ false fun _ h => h)
      (key _ true fun _ h => h)
    · intro x
      rw [List.mem_filterMap]
      constructor
      · rintro ⟨⟨d, i, y⟩, hy, e⟩
        cases d <;> simp at e
        subst e
        exact ((plain_visited (norm := norm) (schema := schema) hp i y).2 hy).2
      · rintro ⟨p, h, ha⟩
        rcases plain_asked hp x p h ha with ⟨i, h⟩ | h | h
        · exact ⟨_, h, rfl⟩
        · exact absurd h hu1
        · exact absurd h hnr
    · intro x
      rw [List.mem_filterMap]
      constructor
      · rintro ⟨⟨d, i, y⟩, hy, e⟩
        cases d <;> simp at e
        subst e
        exact ((plain_visited (norm := norm) (schema := schema) hp i y).1 hy).2
      · rintro ⟨t, ht, h⟩
        obtain ⟨i, h⟩ := plain_from hp x t ht h
        exact ⟨_, h, rfl⟩

end Verif.PgScope
