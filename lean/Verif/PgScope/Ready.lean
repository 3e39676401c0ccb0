import Verif.PgScope.Count
/-!
# Plain queries are collected, and what the scopes say (helper lemmas)
-/
namespace Verif.PgScope
open Verif.Builder Verif.Fields Verif.Lib Verif.PgScope.Spec

variable {norm : Str → Str} {schema : Str}


/-- the FROM items of a plain select -/
theorem plain_shape {s : Select} (hp : Plain s) (t : TableExpr) (ht : t ∈ fromItems s) : Shape t := by
  have hn := hp _ (below_refl _)
  cases hn with
  | s id orderBy limit exprs tables where_ groupBy having window distinctOn h1 h2 =>
    refine shape_of _ t (Nat.le_refl _) ?_ (h1 t ht)
    intro z hz
    refine hp z (below_near
      (y := .b (.clause exprs tables where_ groupBy having window distinctOn)) (by simp [near])
      (below_near (y := .t t) ?_ hz))
    simp only [near, List.mem_append, List.mem_map]
    exact .inr ⟨t, ht, rfl⟩

theorem plain_below {s x : Select} (hp : Plain s) (h : Below (.s s) (.s x)) : Plain x :=
  fun z hz => hp z (below_trans h hz)

theorem plain_wsubs {s : Select} (hp : Plain s) (x : Bool × Nat × Select) (h : x ∈ wsubs s) :
    Plain x.2.2 := plain_below hp (wsubs_below s x h)

theorem mem_wsubs (s : Select) (d : Bool) (i : Nat) (x : Select) :
    (d, i, x) ∈ wsubs s ↔ .sub d i (.paren x) ∈ witemsS s := by
  unfold wsubs
  rw [List.mem_filterMap]
  constructor
  · rintro ⟨w, hw, e⟩
    cases w with
    | noise => simp [WItem.sel] at e
    | sub d' i' b =>
      cases b with
      | paren y => simp [WItem.sel] at e; obtain ⟨rfl, rfl, rfl⟩ := e; exact hw
      | _ => simp [WItem.sel] at e
  · intro h
    exact ⟨_, h, rfl⟩

/-! ## Places -/

theorem name_plain (parts : List Str) (b : Bool) : PlainE (.name parts b) := by
  rintro z ⟨ns, h⟩
  cases h with
  | refl => exact .name _ _
  | step _ y _ _ hy => simp [kids, near, remote] at hy

theorem cond_places_plain (c : Cond) (h : ∀ e, c = .on e → PlainE e) (p : Str × FieldType × Expr)
    (hp : p ∈ condPlaces norm c) : PlainE p.2.2 := by
  cases c with
  | on e => simp [condPlaces] at hp; subst hp; exact h e rfl
  | «using» cols =>
    simp [condPlaces] at hp
    obtain ⟨c, _, rfl⟩ := hp
    exact name_plain _ _
  | _ => simp [condPlaces] at hp

theorem Shape.places_plain {t : TableExpr} (h : Shape t) (p : Str × FieldType × Expr)
    (hp : p ∈ fromPlaces norm t) : PlainE p.2.2 := by
  induction h with
  | aliasedRows items as l h =>
    simp only [fromPlaces, List.mem_map] at hp
    obtain ⟨e, he, rfl⟩ := hp
    exact h e he
  | rows items h =>
    simp only [fromPlaces, List.mem_map] at hp
    obtain ⟨e, he, rfl⟩ := hp
    exact h e he
  | aliasedJoin l r c as lat _ _ hc ih1 ih2 =>
    simp only [fromPlaces, List.mem_append] at hp
    rcases hp with (hp | hp) | hp
    · exact ih1 hp
    · exact ih2 hp
    · exact cond_places_plain c hc p hp
  | join l r c _ _ hc ih1 ih2 =>
    simp only [fromPlaces, List.mem_append] at hp
    rcases hp with (hp | hp) | hp
    · exact ih1 hp
    · exact ih2 hp
    · exact cond_places_plain c hc p hp
  | _ => simp [fromPlaces] at hp

theorem terr_none {items : List TItem} (h : terr items = none) : ∀ i ∈ items, i.errOf = none := by
  induction items with
  | nil => simp
  | cons i r ih =>
    rw [terr] at h
    simp at h
    intro j hj
    rcases List.mem_cons.mp hj with rfl | hj
    · exact h.2
    · exact ih h.1 j hj

theorem cond_places_err (c : Cond) (h : terr (citemsCond norm schema c) = none)
    (p : Str × FieldType × Expr) (hp : p ∈ condPlaces norm c) :
    cerr (citemsE norm schema p.2.1 p.2.2) = none := by
  cases c with
  | on e =>
    simp [condPlaces] at hp
    subst hp
    exact terr_none h (.field (citemsE norm schema .condition e)) (by simp [citemsCond])
  | «using» cols =>
    simp [condPlaces] at hp
    obtain ⟨c, _, rfl⟩ := hp
    rw [using_citem]
    rfl
  | _ => simp [condPlaces] at hp

theorem rows_places_err (items : List Expr) (h : terr (rowItems norm schema items) = none)
    (p : Str × FieldType × Expr) (hp : p ∈ items.map fun e => (([] : Str), FieldType.reference, e)) :
    cerr (citemsE norm schema p.2.1 p.2.2) = none := by
  obtain ⟨e, he, rfl⟩ := List.mem_map.mp hp
  exact terr_none h (.field (citemsE norm schema .reference e)) (List.mem_map.mpr ⟨e, he, rfl⟩)

theorem Shape.places_err {t : TableExpr} (h : Shape t) (he : terr (titems norm schema t) = none)
    (p : Str × FieldType × Expr) (hp : p ∈ fromPlaces norm t) :
    cerr (citemsE norm schema p.2.1 p.2.2) = none := by
  induction h with
  | aliasedRows items as l h => exact rows_places_err items he p hp
  | rows items h => exact rows_places_err items he p hp
  | aliasedJoin l r c as lat _ _ hc ih1 ih2 =>
    simp only [fromPlaces, List.mem_append] at hp
    obtain ⟨h1, h2⟩ := terr_append_none (show terr (titems norm schema l ++ _) = none from he)
    obtain ⟨h2, h3⟩ := terr_append_none h2
    rcases hp with (hp | hp) | hp
    · exact ih1 h1 hp
    · exact ih2 h2 hp
    · exact cond_places_err c h3 p hp
  | join l r c _ _ hc ih1 ih2 =>
    simp only [fromPlaces, List.mem_append] at hp
    obtain ⟨h1, h2⟩ := terr_append_none (show terr (titems norm schema l ++ _) = none from he)
    obtain ⟨h2, h3⟩ := terr_append_none h2
    rcases hp with (hp | hp) | hp
    · exact ih1 h1 hp
    · exact ih2 h2 hp
    · exact cond_places_err c h3 p hp
  | _ => simp [fromPlaces] at hp

/-- what is needed of a place -/
structure Good (norm : Str → Str) (schema : Str) (p : Str × FieldType × Expr) : Prop where
  plain : PlainE p.2.2
  err : cerr (citemsE norm schema p.2.1 p.2.2) = none

theorem good_fields (ν : Nat → Str) (ps : List (Str × FieldType × Expr)) (h : ∀ p ∈ ps, Good norm schema p) :
    List.Forall₂ (FieldOf ν) ps (ps.map (placeField norm schema ν)) := by
  induction ps with
  | nil => exact .nil
  | cons p ps ih =>
    refine .cons ⟨rfl, ?_, ?_⟩ (ih fun p hp => h p (by simp [hp]))
    · intro c
      exact columns_iff ν p.2.2 (h p (by simp)).plain (h p (by simp)).err c
    · intro parts e
      have he := (h p (by simp)).err
      show (colsOf ν (citemsE norm schema p.2.1 p.2.2)).length = 1
      rw [e] at he ⊢
      simp only [citemsE] at he ⊢
      split
      · next hs => simp [hs, cerr, CItem.errOf] at he
      · simp [colsOf, CItem.colOf]

/-! ## Readiness -/

/-- the expressions of a plain select are plain -/
theorem places_plain {s : Select} (hp : Plain s) (p : Str × FieldType × Expr) (h : p ∈ places norm s) :
    PlainE p.2.2 := by
  have hsh := plain_shape hp
  have hn := hp _ (below_refl _)
  cases hn with
  | s id orderBy limit exprs tables where_ groupBy having window distinctOn h1 h2 =>
    have hb : ∀ e, .e e ∈ near (.b (.clause exprs tables where_ groupBy having window distinctOn)) →
        PlainE e := by
      intro e he z hz
      exact hp z (below_near (y := .b _) (by simp [near]) (below_near he hz))
    have hs : ∀ e, .e e ∈ kids (.s (.mk id none orderBy limit
        (.clause exprs tables where_ groupBy having window distinctOn))) → PlainE e := by
      intro e he z hz
      exact hp z (below_step he hz)
    simp only [places, List.mem_append] at h
    rcases h with (((((h | h) | h) | h) | h) | h) | h
    · obtain ⟨⟨e, as⟩, he, rfl⟩ := List.mem_map.mp h
      refine hb e ?_
      simp only [near, List.mem_append, List.mem_map]
      exact .inl (.inl (.inl (.inl (.inl ⟨_, he, rfl⟩))))
    · obtain ⟨t, ht, h⟩ := List.mem_flatMap.mp h
      exact (hsh t ht).places_plain p h
    · obtain ⟨e, he, rfl⟩ := List.mem_map.mp h
      exact hb e (by simp only [near, List.mem_append]; simp [Option.mem_toList.mp he])
    · obtain ⟨e, he, rfl⟩ := List.mem_map.mp h
      exact hb e (by simp only [near, List.mem_append]; simp [he])
    · obtain ⟨e, he, rfl⟩ := List.mem_map.mp h
      exact hb e (by simp only [near, List.mem_append]; simp [Option.mem_toList.mp he])
    · obtain ⟨e, he, rfl⟩ := List.mem_map.mp h
      exact hs e (by simp [kids, near, he])
    · cases limit with
      | none => simp at h
      | mk c o =>
        simp at h
        rcases h with rfl | rfl
        · exact hs c (by simp [kids, near])
        · exact hs o (by simp [kids, remote])

theorem plain_ok {s : Select} (hp : Plain s) : ∀ i ∈ partsS norm schema s, i.Ok := by
  have hsh := plain_shape hp
  have hpl := places_plain (norm := norm) hp
  have hn := hp _ (below_refl _)
  cases hn with
  | s id orderBy limit exprs tables where_ groupBy having window distinctOn h1 h2 =>
    intro i hi
    simp only [partsS, List.mem_append] at hi
    have hc : ∀ as ty e, ((as, ty, e) : Str × FieldType × Expr) ∈ places norm (.mk id none orderBy limit
        (.clause exprs tables where_ groupBy having window distinctOn)) → ∀ as',
        (Part.expr as' (citemsE norm schema ty e)).Ok :=
      fun as ty e h as' => citems_ok e (hpl _ h)
    simp only [places, List.mem_append] at hc
    rcases hi with hi | hi | hi | hi | hi | hi | hi | hi
    · obtain ⟨⟨e, as⟩, he, rfl⟩ := List.mem_map.mp hi
      exact hc as .reference e (.inl (.inl (.inl (.inl (.inl (.inl (List.mem_map.mpr ⟨_, he, rfl⟩))))))) as
    · obtain ⟨t, ht, rfl⟩ := List.mem_map.mp hi
      exact (hsh t ht).ok
    · obtain ⟨e, he, rfl⟩ := List.mem_map.mp hi
      exact hc [] .condition e (.inl (.inl (.inl (.inl (.inr (List.mem_map.mpr ⟨_, he, rfl⟩)))))) _
    · obtain ⟨e, he, rfl⟩ := List.mem_map.mp hi
      exact hc [] .reference e (.inl (.inl (.inl (.inr (List.mem_map.mpr ⟨_, he, rfl⟩))))) _
    · obtain ⟨e, he, rfl⟩ := List.mem_map.mp hi
      exact hc [] .reference e (.inl (.inl (.inr (List.mem_map.mpr ⟨_, he, rfl⟩)))) _
    · cases window <;> simp at hi
      subst hi
      trivial
    · obtain ⟨e, he, rfl⟩ := List.mem_map.mp hi
      exact hc [] .reference e (.inl (.inr (List.mem_map.mpr ⟨_, he, rfl⟩))) _
    · cases limit with
      | none => simp [partsL] at hi
      | mk c o =>
        simp [partsL] at hi
        rcases hi with rfl | rfl
        · exact hc [] .reference c (.inr (by simp)) _
        · exact hc [] .reference o (.inr (by simp)) _

/-- what is visited in a plain select was registered before, and stands in one of its places -/
theorem plain_visited {s : Select} (hp : Plain s) (i : Nat) (x : Select) :
    ((true, i, x) ∈ wsubs s → x.id ∈ (partsS norm schema s).flatMap Part.regsS ∧
      ∃ t ∈ fromItems s, x ∈ fromSubs t) ∧
    ((false, i, x) ∈ wsubs s → x.id ∈ (partsS norm schema s).flatMap Part.regsF ∧
      ∃ p ∈ places norm s, Asks p.2.2 x) := by
  rw [mem_wsubs, mem_wsubs]
  have hsh := plain_shape hp
  have hn := hp _ (below_refl _)
  cases hn with
  | s id orderBy limit exprs tables where_ groupBy having window distinctOn h1 h2 =>
    have hE : ∀ e d, .sub d i (.paren x) ∈ witemsE e → d = false ∧ Asks e x ∧
        ∀ ty, x.id ∈ cregs (citemsE norm schema ty e) := by
      intro e d hm
      have ha := witems_asks d i x e hm
      refine ⟨(wsubE e d i _ hm).1, ha, fun ty => ?_⟩
      exact List.mem_filterMap.mpr ⟨_, (asks_iff x e).mpr ha, rfl⟩
    have hO : ∀ o d, .sub d i (.paren x) ∈ witemsO o → ∃ e, o = some e ∧
        .sub d i (.paren x) ∈ witemsE e := by
      intro o d h
      cases o with
      | none => simp [witemsO] at h
      | some e => simp [witemsO] at h; exact ⟨e, rfl, h⟩
    have hSE : ∀ es d, .sub d i (.paren x) ∈ witemsSEs es → ∃ e as, .mk e as ∈ es ∧
        .sub d i (.paren x) ∈ witemsE e := by
      intro es d h
      induction es with
      | nil => simp [witemsSEs] at h
      | cons e es ih =>
        obtain ⟨e, as⟩ := e
        simp [witemsSEs] at h
        rcases h with h | h
        · exact ⟨e, as, by simp, h⟩
        · obtain ⟨e, as, h1, h2⟩ := ih h
          exact ⟨e, as, by simp [h1], h2⟩
    have hTs : ∀ ts d, .sub d i (.paren x) ∈ witemsTs ts → ∃ t ∈ ts,
        .sub d i (.paren x) ∈ witemsT t := by
      intro ts d h
      induction ts with
      | nil => simp [witemsTs] at h
      | cons t ts ih =>
        simp [witemsTs] at h
        rcases h with h | h
        · exact ⟨t, by simp, h⟩
        · obtain ⟨t, h1, h2⟩ := ih h
          exact ⟨t, by simp [h1], h2⟩
    have hpart : ∀ d, .sub d i (.paren x) ∈ witemsS (.mk id none orderBy limit
        (.clause exprs tables where_ groupBy having window distinctOn)) →
        (∃ t ∈ tables, .sub d i (.paren x) ∈ witemsT t) ∨
        (∃ as as' ty e, .sub d i (.paren x) ∈ witemsE e ∧
          .expr as' (citemsE norm schema ty e) ∈ partsS norm schema (.mk id none orderBy limit
            (.clause exprs tables where_ groupBy having window distinctOn)) ∧
          ((as, ty, e) : Str × FieldType × Expr) ∈ places norm (.mk id none orderBy limit
            (.clause exprs tables where_ groupBy having window distinctOn))) := by
      intro d h
      rw [witemsS, witemsClause] at h
      simp only [List.mem_append, List.mem_singleton, reduceCtorEq, or_false] at h
      simp only [partsS, places, List.mem_append]
      rcases h with ((((((h | h) | h) | h) | h) | h) | h) | h
      · obtain ⟨e, he, h⟩ := (mem_witemsEs _ _).mp h
        refine .inr ⟨[], [], .reference, e, h, ?_, ?_⟩
        · exact .inr (.inr (.inr (.inr (.inr (.inr (.inl (List.mem_map.mpr ⟨e, he, rfl⟩)))))))
        · exact .inl (.inr (List.mem_map.mpr ⟨e, he, rfl⟩))
      · cases limit with
        | none => simp [witemsL] at h
        | mk c o =>
          simp [witemsL] at h
          refine .inr ⟨[], [], .reference, c, h, ?_, .inr (by simp)⟩
          exact .inr (.inr (.inr (.inr (.inr (.inr (.inr (by simp [partsL])))))))
      · obtain ⟨e, as, he, h⟩ := hSE _ _ h
        refine .inr ⟨as, as, .reference, e, h, ?_, ?_⟩
        · exact .inl (List.mem_map.mpr ⟨_, he, rfl⟩)
        · exact .inl (.inl (.inl (.inl (.inl (.inl (List.mem_map.mpr ⟨_, he, rfl⟩))))))
      · obtain ⟨e, rfl, h'⟩ := hO _ _ h
        refine .inr ⟨[], [], .condition, e, h', ?_, ?_⟩
        · exact .inr (.inr (.inl (by simp [partsO])))
        · exact .inl (.inl (.inl (.inl (.inr (by simp)))))
      · obtain ⟨e, rfl, h'⟩ := hO _ _ h
        refine .inr ⟨[], [], .reference, e, h', ?_, ?_⟩
        · exact .inr (.inr (.inr (.inr (.inl (by simp [partsO])))))
        · exact .inl (.inl (.inr (by simp)))
      · obtain ⟨e, he, h⟩ := (mem_witemsEs _ _).mp h
        exact absurd (wsubE e d i _ h).2 (h2 e he i _)
      · obtain ⟨e, he, h⟩ := (mem_witemsEs _ _).mp h
        refine .inr ⟨[], [], .reference, e, h, ?_, ?_⟩
        · exact .inr (.inr (.inr (.inl (List.mem_map.mpr ⟨e, he, rfl⟩))))
        · exact .inl (.inl (.inl (.inr (List.mem_map.mpr ⟨e, he, rfl⟩))))
      · obtain ⟨t, ht, h⟩ := hTs _ _ h
        exact .inl ⟨t, ht, h⟩
    have htab : ∀ t ∈ tables, .table (titems norm schema t) ∈ partsS norm schema
        (.mk id none orderBy limit (.clause exprs tables where_ groupBy having window distinctOn)) := by
      intro t ht
      simp only [partsS, List.mem_append]
      exact .inr (.inl (List.mem_map.mpr ⟨t, ht, rfl⟩))
    constructor
    · intro h
      rcases hpart true h with ⟨t, ht, h⟩ | ⟨_, _, _, e, h, _⟩
      · have := ((hsh t ht).reg (norm := norm) (schema := schema) i x).1 h
        exact ⟨List.mem_flatMap.mpr ⟨_, htab t ht, this.1⟩, t, ht, this.2⟩
      · cases (hE e true h).1
    · intro h
      rcases hpart false h with ⟨t, ht, h⟩ | ⟨as, as', ty, e, h, h3, h4⟩
      · obtain ⟨a1, p, a2, a3⟩ := ((hsh t ht).reg (norm := norm) (schema := schema) i x).2 h
        refine ⟨List.mem_flatMap.mpr ⟨_, htab t ht, a1⟩, p, ?_, a3⟩
        simp only [places, List.mem_append]
        exact .inl (.inl (.inl (.inl (.inl (.inr (List.mem_flatMap.mpr ⟨t, ht, a2⟩))))))
      · obtain ⟨_, a1, a2⟩ := hE e false h
        exact ⟨List.mem_flatMap.mpr ⟨_, h3, a2 ty⟩, _, h4, a1⟩

theorem ready_of {s0 s : Select} {fuel : Nat} (hp : Plain s0) (hf : Fresh s0) (hn : sizeOf s0 ≤ fuel)
    (h : Below (.s s0) (.s s)) : Ready norm schema fuel s where
  clause := by
    have hsh := plain_shape (plain_below hp h)
    have hs := below_sizeOf h
    have hn := plain_below hp h _ (below_refl _)
    cases hn with
    | s id orderBy limit exprs tables where_ groupBy having window distinctOn h1 h2 =>
      refine ⟨id, orderBy, limit, exprs, tables, where_, groupBy, having, window, distinctOn, rfl,
        fun t ht => (hsh t ht).noParen, ?_⟩
      intro t ht
      have h3 : sizeOf t < sizeOf tables := List.sizeOf_lt_of_mem ht
      simp at hs
      omega
  ok := plain_ok (plain_below hp h)
  bodies := by
    intro d i b hm
    have := plain_below hp h _ (wsubS s d i b hm)
    cases d with
    | true => cases this; assumption
    | false => cases this; assumption
  regF := fun i x hx => ((plain_visited (plain_below hp h) i x).2 hx).1
  regS := fun i x hx => ((plain_visited (plain_below hp h) i x).1 hx).1
  sep := by
    rintro i x i' x' h1 h2 rfl
    rw [mem_wsubs] at h1 h2
    have b1 : Below (.s s) (.e (.subquery i' (.paren x))) := wsubS s false i' _ h1
    have b2 : Below (.s x) (.t (.subquery i' (.paren x'))) := wsubS x true i' _ h2
    have c1 := cnt_below subId i' (below_trans h b1)
    have c2 := cnt_kids subId i' (.e (.subquery i' (.paren x))) (.b (.paren x)) (by simp [kids, near])
    have c3 := cnt_kids subId i' (.b (.paren x)) (.s x) (by simp [kids, near])
    have c4 := cnt_below subId i' b2
    have c5 := cnt_kids subId i' (.t (.subquery i' (.paren x'))) (.b (.paren x')) (by simp [kids, near])
    have c6 : cnt subId i' (.s s0) ≤ 1 := List.nodup_iff_count.mp hf.2 i'
    simp only [subId, if_true] at c2 c5
    omega

theorem allReady_of {s0 s : Select} {fuel : Nat} (hp : Plain s0) (hf : Fresh s0) (hn : sizeOf s0 ≤ fuel)
    (h : Below (.s s0) (.s s)) : AllReady norm schema fuel s := by
  suffices ∀ n s, sizeOf s ≤ n → Below (.s s0) (.s s) → AllReady norm schema fuel s from
    this _ s (Nat.le_refl _) h
  intro n
  induction n with
  | zero => intro s h; cases s; simp at h
  | succ n ih =>
    intro s hs h
    refine .mk s (ready_of hp hf hn h) ?_
    intro x hx
    have := wsubs_sizeOf s x hx
    exact ih x.2.2 (by omega) (below_trans h (wsubs_below s x hx))

end Verif.PgScope
