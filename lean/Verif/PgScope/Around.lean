import Verif.Fields.Outer
import Verif.PgScope.EndToEnd
/-!
# C68: columns of the query around a subquery

`C68_conditions_suggested` follows a qualified name from a subquery in an expression to a table of the query around
it.  Here the name may be unqualified, may lead through a FROM subquery of the query around, and the subquery
may also stand in FROM after LATERAL.
-/
namespace Verif.PgScope.Spec
open Verif.Index Verif.Builder Verif.Lib Verif.Fields

/-! ## Specification -/

/-- Nothing that `x` reads is meant by `a.n` (`a` empty: just `n`). -/
def Blind (norm : Str → Str) (Has : Str → Str → Prop) (x : Select) (a n : Str) : Prop :=
  (a ≠ [] ∧ ∀ q ∈ sources norm x, q.1 ≠ a ∧ q.2 ≠ .table a) ∨
  (a = [] ∧ n ≠ [] ∧ (∀ b t, (b, .table t) ∈ sources norm x → ¬Has t n) ∧
    ∀ y, SubOf norm x y → Silent norm y n)

/-- No two FROM items have the same name. -/
def DistinctNames (norm : Str → Str) (s : Select) : Prop :=
  ∀ a src src', (a, src) ∈ sources norm s → (a, src') ∈ sources norm s → src = src'

/-- The FROM subqueries of `s`. -/
def FromSub (s y : Select) : Prop := ∃ t ∈ fromItems s, y ∈ fromSubs t

/-- By the FROM clause of `s` alone, `a.n` (`a` empty: just `n`) means column `m` of the database table `t`. -/
inductive ByFrom (norm : Str → Str) (Has : Str → Str → Prop) : Select → Str → Str → Str → Str → Prop where
  /-- `a` is the name of the table -/
  | qualified (s : Select) (a n t : Str) : a ≠ [] → Named norm s a (.table t) → Has t n →
      ByFrom norm Has s a n t n
  /-- `t` is the only table with such a column, and no FROM subquery has one -/
  | only (s : Select) (b n t : Str) : (b, .table t) ∈ sources norm s → Has t n →
      (∀ b' t', (b', .table t') ∈ sources norm s → Has t' n → t' = t) →
      (∀ y, FromSub s y → Silent norm y n) → ByFrom norm Has s [] n t n
  /-- `a` is the name of a FROM subquery with exactly one such column -/
  | derived (s y : Select) (a n a' n' t m : Str) (p : Str × FieldType × Expr) : a ≠ [] → n ≠ [] →
      Named norm s a (.derived y) → p ∈ places norm y → Gives p n →
      (∀ p' ∈ places norm y, Offers p' n → p' = p) → Mentions p.2.2 (.column a' n') →
      Denotes norm Has y a' n' t m → ByFrom norm Has s a n t m
  /-- the same without qualifier, if nothing else in FROM has such a column -/
  | derivedOnly (s y : Select) (b n a' n' t m : Str) (p : Str × FieldType × Expr) : n ≠ [] →
      (b, .derived y) ∈ sources norm s → (∀ b' t', (b', .table t') ∈ sources norm s → ¬Has t' n) →
      (∀ x, FromSub s x → x = y ∨ Silent norm x n) → p ∈ places norm y → Gives p n →
      (∀ p' ∈ places norm y, Offers p' n → p' = p) → Mentions p.2.2 (.column a' n') →
      Denotes norm Has y a' n' t m → ByFrom norm Has s [] n t m

/-- Every subquery of the FROM item stands after LATERAL. -/
def LateralOnly : TableExpr → Prop
  | .aliased (.subquery _ (.paren _)) _ lateral => lateral = true
  | .aliased (.join l r _) _ _ => LateralOnly l ∧ LateralOnly r
  | .join l r _ => LateralOnly l ∧ LateralOnly r
  | _ => True

/-- In `x`, a subquery of `o`, the name `a.n` means column `m` of the table `t` through `o`: `x` stands in
an expression of `o`, or in its FROM clause after LATERAL. -/
def DenotesAround (norm : Str → Str) (Has : Str → Str → Prop) (o x : Select) (a n t m : Str) : Prop :=
  Blind norm Has x a n ∧
  (((∃ p ∈ places norm o, Asks p.2.2 x) ∧ DistinctNames norm o ∧ ByFrom norm Has o a n t m) ∨
   (FromSub o x ∧ (∀ i ∈ fromItems o, LateralOnly i) ∧
    (∀ b t', (b, .table t') ∈ sources norm o → t'.head? ≠ some '<') ∧
    a ≠ [] ∧ Named norm o a (.table t) ∧ Has t n ∧ m = n))

/-- Somewhere in the query, at any depth, an expression used as `ty` names column `n` of the database table
`t`, and the table is read by the query around. -/
def UsesAround (norm : Str → Str) (Has : Str → Str → Prop) (s : Select) (t n : Str) (ty : FieldType) : Prop :=
  ∃ o x, Below (.s s) (.s o) ∧ ∃ p ∈ places norm x, p.2.1 = ty ∧ ∃ a m, Mentions p.2.2 (.column a m) ∧
    DenotesAround norm Has o x a m t n

end Verif.PgScope.Spec

namespace Verif.PgScope
open Verif.Index Verif.Builder Verif.Fields Verif.Fields.Spec Verif.Lib Verif.PgScope.Spec

variable {norm : Str → Str} {schema : Str}

/-! ## Lemmas -/

section
variable {Has : Str → Str → Prop} {db : Name → Option TableSchema} {ν : Nat → Str} {s : Select} {sc : Scope}

/-- a name means by FROM what it means in the scope without its expression subqueries -/
theorem byFrom_means {a n t m : Str} (hd : ByFrom norm Has s a n t m)
    (hr : ∀ x b, Below (.s s) (.s x) → (b, .table t) ∈ sources norm x → ∀ n, Has t n → Real db t n)
    (h : Setting norm Has db ν s sc) (c : FieldColumn) (ec : c.table = a) (en : c.name = n) :
    Means db (before sc sc.subScopes.length) c t m := by
  have hsubs : (before sc sc.subScopes.length).subScopes = sc.subScopes := by
    simp [before, Scope.subScopes]
  have hf : (before sc sc.subScopes.length).fieldScopes = [] := rfl
  have ht : (before sc sc.subScopes.length).tables = sc.tables := rfl
  have hs := describes_shown h.describes
  cases hd with
  | qualified _ _ _ ha hn hc =>
    subst ec en
    have hreal := hr s _ (below_refl _) hn.1 _ hc
    have hang := (h.real _ _ hreal).2
    have haa := h.names s (below_refl _) _ hn.1
    refine .own ⟨?_, hreal, ?_, .inl ⟨ha, h.calls haa ha hn, by simp [hf]⟩⟩
    · obtain ⟨T, hT, _, h2⟩ := (h.table_iff c.table t).mpr ⟨_, hn.1, rfl⟩
      exact ⟨T, hT, h2⟩
    · intro x hx e
      rw [hsubs, hf, List.append_nil] at hx
      exact hang (e ▸ h.sub_angle (List.mem_append_left _ hx))
  | only b _ _ hb hc huniq hsil =>
    subst en
    have hreal := hr s _ (below_refl _) hb _ hc
    have hang := (h.real _ _ hreal).2
    refine .own ⟨?_, hreal, ?_, .inr ⟨ec, ?_, ?_⟩⟩
    · obtain ⟨T, hT, _, h2⟩ := (h.table_iff b t).mpr ⟨_, hb, rfl⟩
      exact ⟨T, hT, h2⟩
    · intro x hx e
      rw [hsubs, hf, List.append_nil] at hx
      exact hang (e ▸ h.sub_angle (List.mem_append_left _ hx))
    · intro T hT hT'
      obtain ⟨⟨b', src'⟩, hq, he⟩ := (h.table_iff (refName T) T.name).mp ⟨T, hT, rfl, rfl⟩
      cases src' with
      | table t' =>
        simp only [srcKey, Prod.mk.injEq] at he
        rw [← he.2]
        exact huniq b' t' hq (h.has _ _ (he.2 ▸ hT'))
      | derived y =>
        simp only [srcKey, Prod.mk.injEq] at he
        exact absurd (he.2 ▸ h.derived_angle hq) (h.real _ _ hT').2
    · intro x hx
      rw [hsubs, hf, List.append_nil] at hx
      obtain ⟨y, h1, h2⟩ := hs.subs x hx
      exact silent_scope h2 (h.real _ _ hreal).1 (hsil y h1)
  | derived y _ _ a' n' _ _ p ha hn hnm hp hg huniq hm hd =>
    subst ec en
    have haa := h.names s (below_refl _) _ hnm.1
    obtain ⟨ti, hti, hy⟩ := (sources_sub (norm := norm) h.plain y).mpr ⟨_, hnm.1⟩
    obtain ⟨z, hz, hdz⟩ := hs.sub ti hti y hy
    have hset := h.sub hz (.inl ⟨ti, hti, hy⟩) hdz
    obtain ⟨f, hff, u, hu, huse, hut, hun⟩ := hset.find hn hp hg huniq hm
    refine .derived (y := z) (by rw [hsubs]; exact hz)
      (fun x hx e => h.clear.sub_inj (by rw [hsubs] at hx; exact hx) hz e) (by simp [hf]) hn hff
      (.inl ⟨ha, ?_, by simp [hf]⟩) hu huse (denotes_means hd ?_ z hset u hut hun)
    · have := h.calls haa ha hnm
      rw [describes_named hdz]
      exact this
    · intro x b hx
      exact hr x b (below_trans (subOf_below (norm := norm) (.inl ⟨ti, hti, hy⟩)) hx)
  | derivedOnly y b _ a' n' _ _ p hn hb hno hsil hp hg huniq hm hd =>
    subst en
    obtain ⟨ti, hti, hy⟩ := (sources_sub (norm := norm) h.plain y).mpr ⟨_, hb⟩
    obtain ⟨z, hz, hdz⟩ := hs.sub ti hti y hy
    have hset := h.sub hz (.inl ⟨ti, hti, hy⟩) hdz
    obtain ⟨f, hff, u, hu, huse, hut, hun⟩ := hset.find hn hp hg huniq hm
    refine .derived (y := z) (by rw [hsubs]; exact hz)
      (fun x hx e => h.clear.sub_inj (by rw [hsubs] at hx; exact hx) hz e) (by simp [hf]) hn hff
      (.inr ⟨ec, ?_, ?_⟩) hu huse (denotes_means hd ?_ z hset u hut hun)
    · intro T hT hT'
      obtain ⟨⟨b', src'⟩, hq, he⟩ := (h.table_iff (refName T) T.name).mp ⟨T, hT, rfl, rfl⟩
      cases src' with
      | table t' =>
        simp only [srcKey, Prod.mk.injEq] at he
        exact hno b' t' hq (h.has _ _ (he.2 ▸ hT'))
      | derived y =>
        simp only [srcKey, Prod.mk.injEq] at he
        exact absurd (he.2 ▸ h.derived_angle hq) (h.real _ _ hT').2
    · intro x hx
      rw [hsubs, hf, List.append_nil] at hx
      obtain ⟨y', h1, h2⟩ := hs.subs x hx
      rcases hsil y' h1 with rfl | h3
      · exact .inl (h.clear.sub_inj hx hz (by rw [describes_named h2, describes_named hdz]))
      · exact .inr (silent_scope h2 hn h3)
    · intro x b hx
      exact hr x b (below_trans (subOf_below (norm := norm) (.inl ⟨ti, hti, hy⟩)) hx)

/-- what the subquery is blind for is not captured in its scope -/
theorem Setting.blind (h : Setting norm Has db ν s sc) {a n : Str} (ha : a.head? ≠ some '<')
    (hb : Blind norm Has s a n) (ty : FieldType) :
    NotCaptured db sc { table := a, name := n, type := ty } := by
  rcases hb with ⟨hne, hno⟩ | ⟨rfl, hn, hno, hsil⟩
  · refine .inl ⟨hne, ?_, ?_⟩
    · intro T hT
      obtain ⟨⟨b', src'⟩, hq', he⟩ := (h.table_iff (refName T) T.name).mp ⟨T, hT, rfl, rfl⟩
      obtain ⟨h1, h2⟩ := hno _ hq'
      cases src' with
      | table t' =>
        simp only [srcKey, Prod.mk.injEq] at he
        rw [← he.1, ← he.2]
        exact ⟨h1, fun e => h2 (by rw [e])⟩
      | derived y =>
        simp only [srcKey, Prod.mk.injEq] at he
        have := h.derived_angle hq'
        rw [← he.1, ← he.2]
        refine ⟨?_, fun e => ha (show a.head? = _ from (show ν y.id = a from e) ▸ this)⟩
        split
        · exact h1
        · intro e
          exact ha ((show ν y.id = a from e) ▸ this)
    · intro y hy e
      exact ha ((show y.name = a from e) ▸ h.sub_angle hy)
  · refine .inr ⟨rfl, ?_, ?_⟩
    · intro T hT hreal
      obtain ⟨⟨b', src'⟩, hq, he⟩ := (h.table_iff (refName T) T.name).mp ⟨T, hT, rfl, rfl⟩
      cases src' with
      | table t' =>
        simp only [srcKey, Prod.mk.injEq] at he
        exact hno b' t' hq (h.has _ _ (he.2 ▸ hreal))
      | derived y =>
        simp only [srcKey, Prod.mk.injEq] at he
        exact absurd (he.2 ▸ h.derived_angle hq) (h.real _ _ hreal).2
    · intro x hx
      have hs := describes_shown h.describes
      rcases List.mem_append.mp hx with hx | hx
      · obtain ⟨y, h1, h2⟩ := hs.subs x hx
        exact silent_scope h2 hn (hsil y (.inl h1))
      · obtain ⟨y, h1, h2⟩ := hs.asks x hx
        exact silent_scope h2 hn (hsil y (.inr h1))

/-- different names in FROM are different names in the scope -/
theorem Setting.oneName (h : Setting norm Has db ν s sc) (hd : DistinctNames norm s) : OneName sc := by
  intro T hT T' hT' e
  obtain ⟨⟨b, src⟩, hq, he⟩ := (h.table_iff (refName T) T.name).mp ⟨T, hT, rfl, rfl⟩
  obtain ⟨⟨b', src'⟩, hq', he'⟩ := (h.table_iff (refName T') T'.name).mp ⟨T', hT', rfl, rfl⟩
  have nb := h.names s (below_refl _) _ hq
  have nb' := h.names s (below_refl _) _ hq'
  cases src with
  | table t =>
    cases src' with
    | table t' =>
      simp only [srcKey, Prod.mk.injEq] at he he'
      have := hd b _ _ hq (show (b, Src.table t') ∈ _ by rw [he.1, e, ← he'.1]; exact hq')
      cases this
      rw [← he.2, ← he'.2]
    | derived y' =>
      simp only [srcKey, Prod.mk.injEq] at he he'
      by_cases hb : b' = []
      · simp only [hb, ne_eq, not_true_eq_false, if_false] at he'
        exact absurd (by rw [show b = ν y'.id by rw [he.1, e, ← he'.1]]; exact h.derived_angle hq') nb
      · simp only [hb, ne_eq, not_false_eq_true, if_true] at he'
        have := hd b _ _ hq (show (b, Src.derived y') ∈ _ by rw [he.1, e, ← he'.1]; exact hq')
        cases this
  | derived y =>
    cases src' with
    | table t' =>
      simp only [srcKey, Prod.mk.injEq] at he he'
      by_cases hb : b = []
      · simp only [hb, ne_eq, not_true_eq_false, if_false] at he
        exact absurd (by rw [show b' = ν y.id by rw [he'.1, ← e, ← he.1]]; exact h.derived_angle hq) nb'
      · simp only [hb, ne_eq, not_false_eq_true, if_true] at he
        have := hd b _ _ hq (show (b, Src.table t') ∈ _ by rw [he.1, e, ← he'.1]; exact hq')
        cases this
    | derived y' =>
      simp only [srcKey, Prod.mk.injEq] at he he'
      by_cases hb : b = []
      · by_cases hb' : b' = []
        · simp only [hb, hb', ne_eq, not_true_eq_false, if_false] at he he'
          rw [← he.2, ← he'.2, he.1, he'.1, e]
        · simp only [hb, hb', ne_eq, not_true_eq_false, not_false_eq_true, if_true, if_false] at he he'
          exact absurd (by rw [show b' = ν y.id by rw [he'.1, ← e, ← he.1]]; exact h.derived_angle hq) nb'
      · by_cases hb' : b' = []
        · simp only [hb, hb', ne_eq, not_true_eq_false, not_false_eq_true, if_true, if_false] at he he'
          exact absurd (by rw [show b = ν y'.id by rw [he.1, e, ← he'.1]]; exact h.derived_angle hq') nb
        · simp only [hb, hb', ne_eq, not_false_eq_true, if_true] at he he'
          have := hd b _ _ hq (show (b, Src.derived y') ∈ _ by rw [he.1, e, ← he'.1]; exact hq')
          cases this
          rw [← he.2, ← he'.2]

theorem lateral_item {t : TableExpr} (hs : Shape t) (hl : LateralOnly t) {T : Table}
    (hT : T ∈ fromTables norm ν t) : T.isLateral = true ∨ ∃ b, (b, .table T.name) ∈ brings norm t := by
  induction hs with
  | aliasedJoin l r c as lat _ _ _ ih1 ih2 =>
    simp only [fromTables, List.mem_append, LateralOnly, brings] at hT hl ⊢
    rcases hT with hT | hT
    · exact (ih1 hl.1 hT).imp id fun ⟨b, hb⟩ => ⟨b, .inl hb⟩
    · exact (ih2 hl.2 hT).imp id fun ⟨b, hb⟩ => ⟨b, .inr hb⟩
  | join l r c _ _ _ ih1 ih2 =>
    simp only [fromTables, List.mem_append, LateralOnly, brings] at hT hl ⊢
    rcases hT with hT | hT
    · exact (ih1 hl.1 hT).imp id fun ⟨b, hb⟩ => ⟨b, .inl hb⟩
    · exact (ih2 hl.2 hT).imp id fun ⟨b, hb⟩ => ⟨b, .inr hb⟩
  | _ => simp_all [fromTables, brings, LateralOnly]

/-- every use around a subquery is one in the scopes -/
theorem usesAround_scope (h : Setting norm Has db ν s sc) {t n : Str} {ty : FieldType}
    (hr : ∀ x b, Below (.s s) (.s x) → (b, .table t) ∈ sources norm x → ∀ n, Has t n → Real db t n)
    (hu : UsesAround norm Has s t n ty) : OuterUses db sc t n ty := by
  obtain ⟨o, x, ho, p, hp, hty, a, m, hm, hblind, hd⟩ := hu
  obtain ⟨w, hw, hdw⟩ := below_inside o _ s sc (Nat.le_refl _) h.plain h.describes ho
  have hsetw : Setting norm Has db ν o w := ⟨plain_below h.plain ho,
    fun y hy => h.names y (below_trans ho hy), hdw, Clear.inside hw h.clear, h.has, h.real⟩
  have hru : ∀ y b, Below (.s o) (.s y) → (b, .table t) ∈ sources norm y → ∀ n, Has t n → Real db t n :=
    fun y b hy => hr y b (below_trans ho hy)
  have use : ∀ z, Describes allItems norm ν x z → ∃ f ∈ z.fields,
      ({ table := a, name := m, type := p.2.1 } : FieldColumn) ∈ f.columns ∧
        IsUse { table := a, name := m, type := p.2.1 } := by
    intro z hdz
    obtain ⟨f, hf, -, hc⟩ := (describes_shown hdz).place_field p hp hm
    exact ⟨f, hf, hc, by constructor <;> rcases places_type x p hp with e | e <;> simp [e]⟩
  rcases hd with ⟨⟨q, hq, hask⟩, hdist, hby⟩ | ⟨⟨i, hi, hy⟩, hlat, hord, ha, hnm, hhas, rfl⟩
  · obtain ⟨z, hz, hdz⟩ := (describes_shown hdw).asked q hq x hask
    have hox : Below (.s o) (.s x) := subOf_below (norm := norm) (.inr ⟨q, hq, hask⟩)
    have hx := below_trans ho hox
    have hsetz : Setting norm Has db ν x z := ⟨plain_below h.plain hx,
      fun y hy => h.names y (below_trans hx hy), hdz, hsetw.clear.field hz, h.has, h.real⟩
    obtain ⟨f, hf, hc, hcu⟩ := use z hdz
    have haa : a.head? ≠ some '<' := by
      cases hby with
      | qualified _ _ _ _ hn _ => exact h.names o ho _ hn.1
      | only => simp
      | derived _ _ _ _ _ _ _ _ _ _ hn => exact h.names o ho _ hn.1
      | derivedOnly => simp
    exact ⟨w, z, hw, .inl hz, f, hf, _, hc, hcu, hty, hsetz.blind haa hblind _,
      .inl ⟨hz, hsetw.oneName hdist, byFrom_means hby hru hsetw _ rfl rfl⟩⟩
  · obtain ⟨z, hz, hdz⟩ := (describes_shown hdw).sub i hi x hy
    have hsetz := hsetw.sub hz (.inl ⟨i, hi, hy⟩) hdz
    obtain ⟨f, hf, hc, hcu⟩ := use z hdz
    have haa : a.head? ≠ some '<' := h.names o ho _ hnm.1
    have hreal := hru o _ (below_refl _) hnm.1 _ hhas
    have hang := (h.real _ _ hreal).2
    obtain ⟨k, hk, ek⟩ := List.getElem_of_mem hz
    refine ⟨w, z, hw, .inr hz, f, hf, _, hc, hcu, hty, hsetz.blind haa hblind _,
      .inr ⟨k, by rw [List.getElem?_eq_getElem hk, ek], ?_, ha,
        Means.own (c := { table := a, name := n, type := p.2.1 }) ⟨?_, hreal, ?_,
          .inl ⟨ha, hsetw.calls haa ha hnm, by simp [before, Scope.fieldScopes]⟩⟩⟩⟩
    · intro T hT e
      rw [(describes_shown hdw).tables] at hT
      obtain ⟨j, hj, hT⟩ := List.mem_flatMap.mp hT
      rcases lateral_item (plain_shape hsetw.plain j hj) (hlat j hj) hT with h1 | ⟨b, hb⟩
      · exact h1
      · exfalso
        refine hord b _ (List.mem_flatMap.mpr ⟨j, hj, hb⟩) ?_
        rw [e]
        exact hsetw.sub_angle (List.mem_append_left _ hz)
    · obtain ⟨T, hT, _, h2⟩ := (hsetw.table_iff a t).mpr ⟨_, hnm.1, rfl⟩
      exact ⟨T, hT, h2⟩
    · intro y hy' e
      have : y ∈ w.subScopes := by
        simp only [before, Scope.subScopes, Scope.fieldScopes, List.append_nil] at hy'
        exact List.mem_of_mem_take hy'
      exact hang (e ▸ hsetw.sub_angle (List.mem_append_left _ this))

end

theorem outerUses_real {db : Name → Option TableSchema} {sc : Scope} {t n : Str} {ty : FieldType}
    (h : OuterUses db sc t n ty) : ∃ m, Real db t m := by
  obtain ⟨_, _, _, _, _, _, _, _, _, _, _, ⟨_, _, h⟩ | ⟨_, _, _, _, h⟩⟩ := h <;> exact means_real h

/-! ## C68 -/

variable {ε T : Type}

/-- **C68, columns of the query around included.** Take any columns of a table that the query uses in WHERE
or ON, at any depth, directly, through FROM subqueries, or from a subquery into the query around it (from an
expression, with or without qualifier, and through the FROM subqueries there; or qualified after LATERAL); any
order, no repetition.  An index on exactly these is among the suggestions, unless they all belong to the primary
key. -/
theorem C68_around_conditions_suggested (o : Orders) (ho : o.Ok) (norm : Str → Str)
    (cols : List Str → Except ε (List T)) (f : T → Name × Name × Bool) (s : Select) (hp : Plain s)
    (hf : Fresh s) (hr : NoRemoteSubquery s) (hs : SingleFrom s) (hname : OrdinaryNames norm s)
    (fuel : Nat) (hn : sizeOf s ≤ fuel) (out : List IndexTarget)
    (h : listPossibleIndexes o norm fuel cols f (.select s) = .ok (.ok out)) :
    ∃ names rows, cols names = .ok rows ∧
      (∀ n, n ∈ names ↔ ∃ table, ReadsTable norm s table ∧ n = norm table) ∧
      (OrdinaryRows f rows → ∀ t cs, norm t = t → cs ≠ [] → cs.Nodup →
        (∀ n ∈ cs, UsesColumn norm (HasColumn f rows) s t n .condition ∨
          UsesAround norm (HasColumn f rows) s t n .condition) →
        (∃ n ∈ cs, ¬InPrimaryKey f rows t n) → newIndexTarget t cs ∈ out) := by
  obtain ⟨names, rows, schemas, scopes, h1, h2, h3, h4, h5⟩ := list_ok h
  have hnames : ∀ n, n ∈ names ↔ ∃ table, ReadsTable norm s table ∧ n = norm table := by
    intro n
    constructor
    · intro hm
      obtain ⟨table, e, ht⟩ := (C65_names_sound norm o.names ho.names s names h1).2 n hm
      exact ⟨table, ht, e⟩
    · rintro ⟨table, ht, rfl⟩
      exact C65_names_complete_partial norm o.names ho.names s names h1 hr table ht
  refine ⟨names, rows, h2, hnames, ?_⟩
  intro hrow t cs ht hne hnd hu hk
  obtain ⟨ν, sc, rfl, -, hd, hclear⟩ := C49_keeps_tables_partial s hp hf hr hs fuel hn scopes h4
  obtain ⟨hs1, hs2⟩ := schemas_mem h3
  have hhas : ∀ t n, Real (schemaMap schemas) t n → HasColumn f rows t n := by
    rintro t n ⟨sch, h6, h7⟩
    obtain ⟨h8, rfl⟩ := schemaMap_mem h6
    exact ((hs2 sch h8).2.1 n).mp h7
  have hset : Setting norm (HasColumn f rows) (schemaMap schemas) ν s sc := by
    refine ⟨hp, hname, hd, ⟨hclear.1, hclear.2⟩, hhas, ?_⟩
    intro t n hreal
    obtain ⟨v, hv, rfl, rfl⟩ := hhas t n hreal
    exact ⟨(hrow v hv).2, (hrow v hv).1⟩
  have hreal : ∀ x b, Below (.s s) (.s x) → (b, .table t) ∈ sources norm x →
      ∀ n, HasColumn f rows t n → Real (schemaMap schemas) t n := by
    intro x b hx hb n hc
    have hmem := (hnames t).mpr ⟨t, source_read hp hr hx h1 hb, ht.symm⟩
    obtain ⟨sch, h6⟩ := hs1 t hmem
    obtain ⟨h8, rfl⟩ := schemaMap_mem h6
    exact ⟨sch, h6, ((hs2 sch h8).2.1 n).mpr hc⟩
  have huses : ∀ n ∈ cs, Fields.Uses (schemaMap schemas) sc t n .condition ∨
      OuterUses (schemaMap schemas) sc t n .condition :=
    fun n hn => (hu n hn).imp (uses_scope hset hreal) (usesAround_scope hset hreal)
  have hplain : OnlyPlainUses sc := by
    intro x hx fl hfl u hu' huse
    obtain ⟨x', hb, hdx⟩ := inside_below hx s hd
    obtain ⟨p, hpp, hpf⟩ := (describes_shown hdx).field_place fl hfl
    rcases (hpf.2.1 u).mp hu' with ⟨a, n, _, rfl⟩ | ⟨a, _, rfl⟩ | ⟨y, _, rfl⟩
    · exact places_type x' p hpp
    · exact absurd rfl huse.2
    · exact absurd rfl huse.1
  obtain ⟨n0, hn0, hk0⟩ := hk
  obtain ⟨sch, hsch⟩ : ∃ sch, schemaMap schemas t = some sch := by
    obtain ⟨m, sch, h6, -⟩ := (huses n0 hn0).elim uses_real outerUses_real
    exact ⟨sch, h6⟩
  obtain ⟨hm, rfl⟩ := schemaMap_mem hsch
  exact C67_outer_conditions_suggested _ _ _ _ ho.choices schemas [sc] out h5 sc (by simp) hplain _ sch hsch cs
    hne hnd huses ⟨n0, hn0, fun hm' => hk0 (((hs2 sch hm).2.2 n0).mp hm')⟩

/-! ## Examples -/

/-- `SELECT id FROM tags WHERE user_id = name` -/
def exTags_around : Select := .mk 1 none [] .none (.clause
  [.mk (.name ["id".toList] false) []] [.aliased (.tableName [] [] "tags".toList) [] false]
  (some (.node true [.name ["user_id".toList] false, .name ["name".toList] false])) [] none false [])

/-- `SELECT u.id FROM users u WHERE EXISTS (SELECT id FROM tags WHERE user_id = name)` -/
def exAround : Select := .mk 0 none [] .none (.clause
  [.mk (.name ["id".toList, ['u']] false) []] [.aliased (.tableName [] [] "users".toList) ['u'] false]
  (some (.subquery 10 (.paren exTags_around))) [] none false [])

/-- `SELECT tags.id FROM tags WHERE tags.user_id = u.name` -/
def exTagsLateral : Select := .mk 1 none [] .none (.clause
  [.mk (.name ["id".toList, "tags".toList] false) []] [.aliased (.tableName [] [] "tags".toList) [] false]
  (some (.node true [.name ["user_id".toList, "tags".toList] false, .name ["name".toList, ['u']] false]))
  [] none false [])

/-- `SELECT u.id FROM users u JOIN LATERAL (SELECT tags.id FROM tags WHERE tags.user_id = u.name) x ON u.id = x.id` -/
def exAroundLateral : Select := .mk 0 none [] .none (.clause
  [.mk (.name ["id".toList, ['u']] false) []]
  [.join (.aliased (.tableName [] [] "users".toList) ['u'] false)
    (.aliased (.subquery 11 (.paren exTagsLateral)) ['x'] true)
    (.on (.node true [.name ["id".toList, ['u']] false, .name ["id".toList, ['x']] false]))]
  none [] none false [])

/-- a query that reads one table and asks no subquery has no subqueries -/
theorem exTags_subs (y : Select) : ¬SubOf lower exTags_around y := by
  rintro (⟨t, ht, hy⟩ | ⟨p, hp, hy⟩)
  · simp only [fromItems, exTags_around, List.mem_singleton] at ht
    subst ht
    simp [fromSubs] at hy
  · have hpl : places lower exTags_around = [([], .reference, .name ["id".toList] false), ([], .condition,
      .node true [.name ["user_id".toList] false, .name ["name".toList] false])] := rfl
    rw [hpl] at hp
    simp only [List.mem_cons, List.not_mem_nil, or_false] at hp
    rcases hp with rfl | rfl
    · cases hy with
      | operand _ y _ hy _ => simp [operands] at hy
    · cases hy with
      | operand _ y _ hy h =>
        simp only [operands, List.mem_cons, List.not_mem_nil, or_false] at hy
        rcases hy with rfl | rfl <;> cases h with
          | operand _ y _ hy _ => simp [operands] at hy

/-- `name` in the EXISTS subquery is column `name` of `users` -/
theorem exAround_uses : UsesAround lower (HasColumn id exRows) exAround (n "users") (n "name") .condition := by
  refine ⟨exAround, exTags_around, below_refl _, ([], .condition,
      .node true [.name ["user_id".toList] false, .name ["name".toList] false]),
    by simp [places, exTags_around, fromPlaces], rfl, [], "name".toList,
    .operand _ (.name ["name".toList] false) _ (by simp [operands]) (.column _),
    .inr ⟨rfl, by simp, ?_, fun y hy => absurd hy (exTags_subs y)⟩,
    .inl ⟨⟨([], .condition, .subquery 10 (.paren exTags_around)), by simp [places, exAround, fromPlaces],
      .subquery _ _⟩, ?_, .only _ ['u'] _ _ (by simp [sources, brings, exAround, fromItems, n, lower]) ?_ ?_ ?_⟩⟩
  · intro b t ht
    have hs : sources lower exTags_around = [("tags".toList, .table "tags".toList)] := rfl
    rw [hs] at ht
    simp only [List.mem_singleton, Prod.mk.injEq, Src.table.injEq] at ht
    rw [ht.2]
    unfold HasColumn
    decide +kernel
  · intro a src src' h h'
    have hs : sources lower exAround = [(['u'], .table "users".toList)] := rfl
    rw [hs, List.mem_singleton] at h h'
    cases h; cases h'; rfl
  · unfold HasColumn; decide +kernel
  · intro b t h _
    have hs : sources lower exAround = [(['u'], .table "users".toList)] := rfl
    rw [hs, List.mem_singleton] at h
    cases h; rfl
  · rintro y ⟨t, ht, hy⟩
    simp only [fromItems, exAround, List.mem_singleton] at ht
    subst ht
    simp [fromSubs] at hy

/-- `u.name` in the LATERAL subquery is column `name` of `users` -/
theorem exAroundLateral_uses :
    UsesAround lower (HasColumn id exRows) exAroundLateral (n "users") (n "name") .condition := by
  have hs : sources lower exAroundLateral = [(['u'], .table "users".toList), (['x'], .derived exTagsLateral)] := rfl
  have hi : sources lower exTagsLateral = [("tags".toList, .table "tags".toList)] := rfl
  refine ⟨exAroundLateral, exTagsLateral, below_refl _, ([], .condition,
      .node true [.name ["user_id".toList, "tags".toList] false, .name ["name".toList, ['u']] false]),
    by simp [places, exTagsLateral, fromPlaces], rfl, ['u'], "name".toList,
    .operand _ (.name ["name".toList, ['u']] false) _ (by simp [operands]) (.column _),
    .inl ⟨by simp, ?_⟩,
    .inr ⟨⟨_, List.mem_singleton_self _, by simp [fromSubs]⟩, ?_, ?_, by simp, ⟨?_, ?_⟩, ?_, rfl⟩⟩
  · intro q hq
    rw [hi, List.mem_singleton] at hq
    subst hq
    exact ⟨by decide +kernel, by simp⟩
  · intro i h
    simp only [fromItems, exAroundLateral, List.mem_singleton] at h
    subst h
    simp [LateralOnly]
  · intro b t h
    rw [hs] at h
    simp only [List.mem_cons, Prod.mk.injEq, Src.table.injEq, reduceCtorEq, and_false, List.not_mem_nil,
      or_false] at h
    rw [h.2]
    decide +kernel
  · rw [hs]; simp [n]
  · intro src' h
    rw [hs] at h
    simp at h
    exact h
  · unfold HasColumn; decide +kernel

/-- all hypotheses of `C68_around_conditions_suggested` hold of a query -/
theorem ex_around {s : Select} (hp : Plain s) (hf : Fresh s) (hr : NoRemoteSubquery s) (hs : SingleFrom s)
    (hname : OrdinaryNames lower s) (hn : sizeOf s ≤ 100000) {out : List IndexTarget}
    (h : listPossibleIndexes idOrders lower 100000 (fun _ => (.ok exRows : Except Unit _)) id (.select s) =
      .ok (.ok out))
    (hu : UsesAround lower (HasColumn id exRows) s (n "users") (n "name") .condition) :
    newIndexTarget (n "users") [n "name"] ∈ out := by
  obtain ⟨names, rows, h1, -, h2⟩ := C68_around_conditions_suggested idOrders idOrders_ok lower
    _ id s hp hf hr hs hname 100000 hn _ h
  simp only [Except.ok.injEq] at h1
  subst h1
  refine h2 (by unfold OrdinaryRows; decide +kernel) (n "users") [n "name"] (by decide +kernel) (by simp) (by simp) ?_ ?_
  · intro m hm
    rw [List.mem_singleton] at hm
    subst hm
    exact .inr hu
  · exact ⟨n "name", by simp, by unfold InPrimaryKey; decide +kernel⟩

/-- the analysis succeeds on both queries -/
theorem exAround_ok : ∃ out, listPossibleIndexes idOrders lower 100000 (fun _ => (.ok exRows : Except Unit _)) id
    (.select exAround) = .ok (.ok out) := by
  cases h : outOf (listPossibleIndexes idOrders lower 100000 (fun _ => (.ok exRows : Except Unit _)) id
    (.select exAround)) with
  | some l => exact ⟨l, outOf_some h⟩
  | none => exact absurd h (by decide +kernel)

theorem exAroundLateral_ok : ∃ out, listPossibleIndexes idOrders lower 100000
    (fun _ => (.ok exRows : Except Unit _)) id (.select exAroundLateral) = .ok (.ok out) := by
  cases h : outOf (listPossibleIndexes idOrders lower 100000 (fun _ => (.ok exRows : Except Unit _)) id
    (.select exAroundLateral)) with
  | some l => exact ⟨l, outOf_some h⟩
  | none => exact absurd h (by decide +kernel)

/-- so an index on `users (name)` is suggested for both -/
example : ∃ out, listPossibleIndexes idOrders lower 100000 (fun _ => (.ok exRows : Except Unit _)) id
    (.select exAround) = .ok (.ok out) ∧ newIndexTarget (n "users") [n "name"] ∈ out := by
  obtain ⟨out, h⟩ := exAround_ok
  exact ⟨out, h, ex_around (plain_of _ 20 (by decide +kernel))
    (fresh_of _ 20 (by decide +kernel) (by decide +kernel) (by decide +kernel))
    (noRemote_of _ 20 (by decide +kernel)) (single_of _ 20 (by decide +kernel)) (ordinary_of _ 20 (by decide +kernel))
    (by decide +kernel) h exAround_uses⟩

example : ∃ out, listPossibleIndexes idOrders lower 100000 (fun _ => (.ok exRows : Except Unit _)) id
    (.select exAroundLateral) = .ok (.ok out) ∧ newIndexTarget (n "users") [n "name"] ∈ out := by
  obtain ⟨out, h⟩ := exAroundLateral_ok
  exact ⟨out, h, ex_around (plain_of _ 20 (by decide +kernel))
    (fresh_of _ 20 (by decide +kernel) (by decide +kernel) (by decide +kernel))
    (noRemote_of _ 20 (by decide +kernel)) (single_of _ 20 (by decide +kernel)) (ordinary_of _ 20 (by decide +kernel))
    (by decide +kernel) h exAroundLateral_uses⟩

end Verif.PgScope
