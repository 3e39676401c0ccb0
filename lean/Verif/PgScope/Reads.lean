import Verif.PgScope.Scopes
import Verif.Fields.Uses
/-!
# Which table columns a PostgreSQL query uses (specification), and where its scopes show them

The specification speaks of syntax trees only; the lemmas lead from it to `Verif.Fields.Uses`, which
speaks of scopes.
-/
namespace Verif.PgScope.Spec
open Verif.Builder Verif.Fields Verif.PgScope

/-! ## Specification -/

/-- What a FROM item is. -/
inductive Src where
  | table (name : Str)
  | derived (y : Select)

/-- The names a FROM item brings and what they stand for.  (The alias of a join is not one of them.) -/
def brings (norm : Str → Str) : TableExpr → List (Str × Src)
  | .aliased (.tableName _ _ table) as _ => [(if norm as ≠ [] then norm as else table, .table table)]
  | .aliased (.objectName parts) as _ =>
    [(if norm as ≠ [] then norm as else part parts 0, .table (part parts 0))]
  | .aliased (.subquery _ (.paren y)) as _ => [(norm as, .derived y)]
  | .aliased (.join l r _) _ _ => brings norm l ++ brings norm r
  | .join l r _ => brings norm l ++ brings norm r
  | _ => []

/-- The names the FROM clause brings. -/
def sources (norm : Str → Str) (s : Select) : List (Str × Src) := (fromItems s).flatMap (brings norm)

/-- `a` is the name of `src` in the FROM clause, and of nothing else there. -/
def Named (norm : Str → Str) (s : Select) (a : Str) (src : Src) : Prop :=
  (a, src) ∈ sources norm s ∧ ∀ src', (a, src') ∈ sources norm s → src' = src

/-- `y` is a subquery directly in `s`: in FROM, or in an expression. -/
def SubOf (norm : Str → Str) (s y : Select) : Prop :=
  (∃ t ∈ fromItems s, y ∈ fromSubs t) ∨ ∃ p ∈ places norm s, Asks p.2.2 y

/-- The expression, with the name `AS` gives it, may be taken for a column `n`. -/
def Offers (p : Str × FieldType × Expr) (n : Str) : Prop :=
  p.1 = n ∨ (p.1 = [] ∧ ∃ t, Mentions p.2.2 (.column t n))

/-- The expression is a column `n`: by `AS`, or because it is just a column of that name. -/
def Gives (p : Str × FieldType × Expr) (n : Str) : Prop :=
  p.1 = n ∨ (p.1 = [] ∧ ∃ parts, p.2.2 = .name parts false ∧ part parts 0 = n)

/-- Nothing in `y` may be taken for a column `n`. -/
def Silent (norm : Str → Str) (y : Select) (n : Str) : Prop :=
  ∀ p ∈ places norm y, ¬Offers p n ∧ ∀ t, ¬Mentions p.2.2 (.star t)

/-- In the select `s`, the column name `a.n` (`a` empty: just `n`) means column `m` of the database table
`t`.  `Has t n`: the database table `t` has a column `n`. -/
inductive Denotes (norm : Str → Str) (Has : Str → Str → Prop) : Select → Str → Str → Str → Str → Prop where
  /-- `a` is the name of the table in FROM -/
  | qualified (s : Select) (a n t : Str) : a ≠ [] → Named norm s a (.table t) → Has t n →
      Denotes norm Has s a n t n
  /-- `t` is the only table in FROM with such a column, and no subquery in `s` has one -/
  | only (s : Select) (b n t : Str) : (b, .table t) ∈ sources norm s → Has t n →
      (∀ b' t', (b', .table t') ∈ sources norm s → Has t' n → t' = t) →
      (∀ y, SubOf norm s y → Silent norm y n) → Denotes norm Has s [] n t n
  /-- `a` is the name of a FROM subquery with exactly one such column -/
  | derived (s y : Select) (a n a' n' t m : Str) (p : Str × FieldType × Expr) : a ≠ [] → n ≠ [] →
      Named norm s a (.derived y) → p ∈ places norm y → Gives p n →
      (∀ p' ∈ places norm y, Offers p' n → p' = p) → Mentions p.2.2 (.column a' n') →
      Denotes norm Has y a' n' t m → Denotes norm Has s a n t m
  /-- the same without qualifier, if nothing else in `s` has such a column -/
  | derivedOnly (s y : Select) (b n a' n' t m : Str) (p : Str × FieldType × Expr) : n ≠ [] →
      (b, .derived y) ∈ sources norm s → (∀ b' t', (b', .table t') ∈ sources norm s → ¬Has t' n) →
      (∀ x, SubOf norm s x → x = y ∨ Silent norm x n) → p ∈ places norm y → Gives p n →
      (∀ p' ∈ places norm y, Offers p' n → p' = p) → Mentions p.2.2 (.column a' n') →
      Denotes norm Has y a' n' t m → Denotes norm Has s [] n t m

/-- In `x`, a subquery in an expression of `o`, the name `a.n` means column `n` of the table `t` in the
FROM clause of `o`. -/
def DenotesOuter (norm : Str → Str) (Has : Str → Str → Prop) (o x : Select) (a n t : Str) : Prop :=
  (∃ p ∈ places norm o, Asks p.2.2 x) ∧ a ≠ [] ∧ Named norm o a (.table t) ∧ Has t n ∧
  ∀ q ∈ sources norm x, q.1 ≠ a ∧ q.2 ≠ .table a

/-- Somewhere in the query, at any depth, an expression used as `ty` (in WHERE and ON: as a condition)
names column `n` of the database table `t`. -/
def UsesColumn (norm : Str → Str) (Has : Str → Str → Prop) (s : Select) (t n : Str) (ty : FieldType) :
    Prop :=
  ∃ x, Below (.s s) (.s x) ∧ ∃ p ∈ places norm x, p.2.1 = ty ∧ ∃ a m, Mentions p.2.2 (.column a m) ∧
    (Denotes norm Has x a m t n ∨ (m = n ∧ ∃ o, Below (.s s) (.s o) ∧ DenotesOuter norm Has o x a m t))

/-- No name in a FROM clause begins with `<`, as the names made up for subqueries do. -/
def OrdinaryNames (norm : Str → Str) (s : Select) : Prop :=
  ∀ x, Below (.s s) (.s x) → ∀ q ∈ sources norm x, q.1.head? ≠ some '<'

end Verif.PgScope.Spec

namespace Verif.PgScope
open Verif.Builder Verif.Fields Verif.Fields.Spec Verif.Lib Verif.PgScope.Spec

variable {norm : Str → Str} {schema : Str}

/-! ## Nested selects -/

theorem kid_operand (e : Expr) (y : Nd) (h : y ∈ kids (.e e)) :
    (∃ e', y = .e e' ∧ (e' ∈ operands e ∨ kids (.e e') = [])) ∨ ∃ i b, e = .subquery i b ∧ y = .b b := by
  cases e with
  | node known ks =>
    simp only [kids, near, remote, List.append_nil, List.mem_map] at h
    obtain ⟨e', h, rfl⟩ := h
    exact .inl ⟨e', rfl, .inl h⟩
  | case subject whens els =>
    simp only [kids, near, remote, List.append_nil, List.mem_append, List.mem_cons, List.not_mem_nil,
      or_false, List.mem_flatMap] at h
    rcases h with (rfl | rfl) | ⟨⟨c, v⟩, hw, h⟩
    · exact .inl ⟨_, rfl, .inl (by simp [operands])⟩
    · exact .inl ⟨_, rfl, .inl (by simp [operands])⟩
    · have key : ∀ z, z ∈ [c, v] → z ∈ operands (.case subject whens els) := by
        intro z hz
        simp only [operands, List.mem_append, List.mem_flatMap]
        exact .inr ⟨.mk c v, hw, hz⟩
      simp only [List.mem_cons, List.not_mem_nil, or_false] at h
      rcases h with rfl | rfl
      · exact .inl ⟨_, rfl, .inl (key _ (by simp))⟩
      · exact .inl ⟨_, rfl, .inl (key _ (by simp))⟩
  | func args filter over orderBy =>
    simp only [kids, near, remote, List.mem_append, List.mem_cons, List.not_mem_nil, or_false,
      List.mem_map] at h
    have ko : ∀ z, z ∈ overExprs over → z ∈ operands (.func args filter over orderBy) := by
      intro z hz
      simp [operands, hz]
    rcases h with ((h | ⟨a, h, rfl⟩) | rfl) | h | ⟨a, h, rfl⟩
    · cases over with
      | none => simp [overKids] at h
      | mk ps os f =>
        cases f with
        | none =>
          simp only [overKids, List.mem_map] at h
          obtain ⟨a, h, rfl⟩ := h
          exact .inl ⟨a, rfl, .inl (ko a (by simp [overExprs, h]))⟩
        | mk b z =>
          simp only [overKids, List.mem_append, List.mem_map] at h
          rcases h with ⟨a, h, rfl⟩ | h | h
          · exact .inl ⟨a, rfl, .inl (ko a (by simp [overExprs, h]))⟩
          · cases b with
            | none => simp [boundKids] at h
            | mk a =>
              simp [boundKids] at h
              subst h
              exact .inl ⟨a, rfl, .inl (ko a (by simp [overExprs, boundExprs]))⟩
          · cases z with
            | none => simp [boundKids] at h
            | mk a =>
              simp [boundKids] at h
              subst h
              exact .inl ⟨a, rfl, .inl (ko a (by simp [overExprs, boundExprs]))⟩
    · cases hs : isStar a with
      | true =>
        cases a <;> simp [isStar] at hs
        exact .inl ⟨_, rfl, .inr rfl⟩
      | false => exact .inl ⟨a, rfl, .inl (by simp [operands, h, hs])⟩
    · exact .inl ⟨_, rfl, .inl (by simp [operands])⟩
    · cases over with
      | none => simp [overOrder] at h
      | mk ps os f =>
        simp only [overOrder, List.mem_map] at h
        obtain ⟨a, h, rfl⟩ := h
        exact .inl ⟨a, rfl, .inl (ko a (by cases f <;> simp [overExprs, h]))⟩
    · exact .inl ⟨a, rfl, .inl (by simp [operands, h])⟩
  | tupleStar e =>
    simp [kids, near, remote] at h
    subst h
    cases e <;> first | exact .inl ⟨_, rfl, .inr rfl⟩ | exact .inl ⟨_, rfl, .inl (by simp [operands])⟩
  | columnAccess e c =>
    simp [kids, near, remote] at h
    subst h
    cases e <;> first | exact .inl ⟨_, rfl, .inr rfl⟩ | exact .inl ⟨_, rfl, .inl (by simp [operands])⟩
  | subquery i b =>
    simp [kids, near, remote] at h
    exact .inr ⟨i, b, rfl, h⟩
  | _ => simp [kids, near, remote] at h

theorem below_expr (x : Select) : ∀ e, PlainE e → Below (.e e) (.s x) →
    ∃ y, Asks e y ∧ Below (.s y) (.s x) := by
  refine operand_induction fun e ih => ?_
  intro hp hb
  obtain ⟨ns, hb⟩ := hb
  cases hb with
  | step _ y _ ns hy hr =>
    rcases kid_operand e y hy with ⟨e', rfl, he | he⟩ | ⟨i, b, rfl, rfl⟩
    · obtain ⟨z, h1, h2⟩ := ih e' he (hp.operand he) ⟨_, hr⟩
      exact ⟨z, .operand _ _ _ he h1, h2⟩
    · cases hr with
      | step _ y _ ns hy _ => rw [he] at hy; cases hy
    · have := hp _ (below_refl _)
      cases this with
      | subquery _ _ hb =>
        obtain ⟨s, rfl⟩ := hb
        refine ⟨s, .subquery _ _, ?_⟩
        cases hr with
        | step _ y _ ns hy hr =>
          simp [kids, near, remote] at hy
          subst hy
          exact ⟨_, hr⟩

theorem below_item (x : Select) {t : TableExpr} (hs : Shape t) (hb : Below (.t t) (.s x)) :
    (∃ y ∈ fromSubs t, Below (.s y) (.s x)) ∨
    ∃ p ∈ fromPlaces norm t, ∃ y, Asks p.2.2 y ∧ Below (.s y) (.s x) := by
  have hc : ∀ (l r : TableExpr) (c : Cond), (∀ e, c = .on e → PlainE e) → ∀ y, y ∈ condNds c →
      Below y (.s x) → ∃ p ∈ condPlaces norm c, ∃ y, Asks p.2.2 y ∧ Below (.s y) (.s x) := by
    intro l r c hc y hy hb
    cases c with
    | on e =>
      simp [condNds] at hy
      subst hy
      obtain ⟨z, h1, h2⟩ := below_expr x e (hc e rfl) hb
      exact ⟨_, List.mem_singleton.mpr rfl, z, h1, h2⟩
    | _ => simp [condNds] at hy
  have hrow : ∀ items : List Expr, (∀ e ∈ items, PlainE e) → Below (.t (.rowsFrom items)) (.s x) →
      ∃ p ∈ fromPlaces norm (.rowsFrom items), ∃ y, Asks p.2.2 y ∧ Below (.s y) (.s x) := by
    intro items hi hb
    obtain ⟨ns, hb⟩ := hb
    cases hb with
    | step _ y _ ns hy hr =>
      simp only [kids, near, remote, List.append_nil, List.mem_map] at hy
      obtain ⟨e, he, rfl⟩ := hy
      obtain ⟨z, h1, h2⟩ := below_expr x e (hi e he) ⟨_, hr⟩
      exact ⟨([], .reference, e), by simp [fromPlaces, he], z, h1, h2⟩
  have hal : ∀ t as l, Below (.t (.aliased t as l)) (.s x) → Below (.t t) (.s x) := by
    intro t as l hb
    obtain ⟨ns, hb⟩ := hb
    cases hb with
    | step _ y _ ns hy hr =>
      simp [kids, near, remote] at hy
      subst hy
      exact ⟨_, hr⟩
  have hnone : ∀ t, kids (.t t) = [] → ¬Below (.t t) (.s x) := by
    rintro t hk ⟨ns, hb⟩
    cases hb with
    | step _ y _ ns hy hr => rw [hk] at hy; cases hy
  have hjoin : ∀ l r c, (∀ e, c = .on e → PlainE e) → Below (.t (.join l r c)) (.s x) →
      Below (.t l) (.s x) ∨ Below (.t r) (.s x) ∨
        ∃ p ∈ condPlaces norm c, ∃ y, Asks p.2.2 y ∧ Below (.s y) (.s x) := by
    rintro l r c hce ⟨ns, hb⟩
    cases hb with
    | step _ y _ ns hy hr =>
      rw [kids_join, List.mem_cons, List.mem_cons] at hy
      rcases hy with rfl | rfl | hy
      · exact .inl ⟨_, hr⟩
      · exact .inr (.inl ⟨_, hr⟩)
      · exact .inr (.inr (hc l r c hce y hy ⟨_, hr⟩))
  induction hs with
  | tableName c s t as l => exact absurd (hal _ _ _ hb) (hnone _ rfl)
  | objectName ps as l => exact absurd (hal _ _ _ hb) (hnone _ rfl)
  | statementSource as l => exact absurd (hal _ _ _ hb) (hnone _ rfl)
  | tableRef as l => exact absurd (hal _ _ _ hb) (hnone _ rfl)
  | derived i s as l =>
    obtain ⟨ns, hb⟩ := hal _ _ _ hb
    cases hb with
    | step _ y _ ns hy hr =>
      simp [kids, near, remote] at hy
      subst hy
      cases hr with
      | step _ y _ ns hy hr =>
        simp [kids, near, remote] at hy
        subst hy
        exact .inl ⟨s, by simp [fromSubs], _, hr⟩
  | aliasedRows items as l hi => exact .inr (hrow items hi (hal _ _ _ hb))
  | aliasedJoin l r c as lat _ _ hce ih1 ih2 =>
    rcases hjoin l r c hce (hal _ _ _ hb) with h | h | ⟨p, h1, h2⟩
    · rcases ih1 h with ⟨y, h1, h2⟩ | ⟨p, h1, h2⟩
      · exact .inl ⟨y, by simp [fromSubs, h1], h2⟩
      · exact .inr ⟨p, by simp [fromPlaces, h1], h2⟩
    · rcases ih2 h with ⟨y, h1, h2⟩ | ⟨p, h1, h2⟩
      · exact .inl ⟨y, by simp [fromSubs, h1], h2⟩
      · exact .inr ⟨p, by simp [fromPlaces, h1], h2⟩
    · exact .inr ⟨p, by simp [fromPlaces, h1], h2⟩
  | join l r c _ _ hce ih1 ih2 =>
    rcases hjoin l r c hce hb with h | h | ⟨p, h1, h2⟩
    · rcases ih1 h with ⟨y, h1, h2⟩ | ⟨p, h1, h2⟩
      · exact .inl ⟨y, by simp [fromSubs, h1], h2⟩
      · exact .inr ⟨p, by simp [fromPlaces, h1], h2⟩
    · rcases ih2 h with ⟨y, h1, h2⟩ | ⟨p, h1, h2⟩
      · exact .inl ⟨y, by simp [fromSubs, h1], h2⟩
      · exact .inr ⟨p, by simp [fromPlaces, h1], h2⟩
    · exact .inr ⟨p, by simp [fromPlaces, h1], h2⟩
  | rows items hi => exact .inr (hrow items hi hb)
  | bareObject ps => exact absurd hb (hnone _ rfl)
  | bareSource => exact absurd hb (hnone _ rfl)
  | bareRef => exact absurd hb (hnone _ rfl)

theorem below_select {s x : Select} (hp : Plain s) (hb : Below (.s s) (.s x)) :
    x = s ∨ ∃ y, SubOf norm s y ∧ Below (.s y) (.s x) := by
  obtain ⟨ns, hb⟩ := hb
  cases hb with
  | refl => exact .inl rfl
  | step _ y _ ns hy hr =>
    refine .inr ?_
    have hsh := plain_shape hp
    have hpl := places_plain (norm := norm) hp
    have hE : ∀ p ∈ places norm s, Below (.e p.2.2) (.s x) →
        ∃ y, SubOf norm s y ∧ Below (.s y) (.s x) := by
      intro p hpp hb
      obtain ⟨z, h1, h2⟩ := below_expr x _ (hpl p hpp) hb
      exact ⟨z, .inr ⟨p, hpp, h1⟩, h2⟩
    have hn := hp _ (below_refl _)
    cases hn with
    | s id orderBy limit exprs tables where_ groupBy having window distinctOn h1 h2 =>
      have hR : ∀ e, ([], .reference, e) ∈ places norm (.mk id none orderBy limit
          (.clause exprs tables where_ groupBy having window distinctOn)) → Below (.e e) (.s x) → _ :=
        fun e he hb => hE _ he hb
      simp only [kids, near, Option.getD_none, List.map_nil, List.nil_append, List.mem_append,
        List.mem_map, List.mem_singleton] at hy
      rcases hy with ((⟨e, he, rfl⟩ | hy) | rfl) | hy
      · exact hR e (by simp [places, he]) ⟨_, hr⟩
      · cases limit with
        | none => simp at hy
        | mk c o =>
          simp at hy
          subst hy
          exact hR c (by simp [places]) ⟨_, hr⟩
      · cases hr with
        | step _ y _ ns hy hr =>
          simp only [kids, near, remote, List.append_nil, List.mem_append, List.mem_map] at hy
          rcases hy with ((((⟨⟨e, as⟩, he, rfl⟩ | ⟨e, he, rfl⟩) | ⟨e, he, rfl⟩) | ⟨e, he, rfl⟩) |
            ⟨e, he, rfl⟩) | ⟨t, ht, rfl⟩
          · refine hE (as, .reference, e) ?_ ⟨_, hr⟩
            simp only [places, List.mem_append, List.mem_map]
            exact .inl (.inl (.inl (.inl (.inl (.inl ⟨_, he, rfl⟩)))))
          · exact hE ([], .condition, e) (by simp [places, Option.mem_toList.mp he]) ⟨_, hr⟩
          · exact hR e (by simp [places, Option.mem_toList.mp he]) ⟨_, hr⟩
          · obtain ⟨i, b, hsub⟩ := expr_subquery hr e rfl (by simp)
            exact absurd hsub (h2 e he i b)
          · exact hR e (by simp [places, he]) ⟨_, hr⟩
          · rcases below_item (norm := norm) x (hsh t ht) ⟨_, hr⟩ with ⟨z, h3, h4⟩ | ⟨p, h3, z, h4, h5⟩
            · exact ⟨z, .inl ⟨t, ht, h3⟩, h4⟩
            · refine ⟨z, .inr ⟨p, ?_, h4⟩, h5⟩
              simp only [places, List.mem_append]
              exact .inl (.inl (.inl (.inl (.inl (.inr (List.mem_flatMap.mpr ⟨t, ht, h3⟩))))))
      · cases limit with
        | none => simp [remote] at hy
        | mk c o =>
          simp [remote] at hy
          subst hy
          exact hR o (by simp [places]) ⟨_, hr⟩

/-! ## From selects to scopes -/

/-- The names a FROM item has in a scope. -/
def srcKey (ν : Nat → Str) : Str × Src → Str × Str
  | (a, .table t) => (a, t)
  | (a, .derived y) => (if a ≠ [] then a else ν y.id, ν y.id)

theorem tables_brings (ν : Nat → Str) {t : TableExpr} (hs : Shape t) :
    (fromTables norm ν t).map (fun T => (refName T, T.name)) = (brings norm t).map (srcKey ν) := by
  induction hs with
  | aliasedJoin l r c as lat _ _ _ ih1 ih2 => simp [fromTables, brings, ih1, ih2]
  | join l r c _ _ _ ih1 ih2 => simp [fromTables, brings, ih1, ih2]
  | _ => simp [fromTables, brings, ← asOrName_eq, Table.asOrName, srcKey]

theorem subs_brings {t : TableExpr} (hs : Shape t) (y : Select) :
    y ∈ fromSubs t ↔ ∃ a, (a, .derived y) ∈ brings norm t := by
  induction hs with
  | aliasedJoin l r c as lat _ _ _ ih1 ih2 => simp [fromSubs, brings, ih1, ih2, exists_or]
  | join l r c _ _ _ ih1 ih2 => simp [fromSubs, brings, ih1, ih2, exists_or]
  | _ => simp [fromSubs, brings]

theorem tables_sources (ν : Nat → Str) {s : Select} (hp : Plain s) :
    (((allItems (fromItems s)).flatMap (fromTables norm ν)).map fun T => (refName T, T.name)) =
      (sources norm s).map (srcKey ν) := by
  have hsh := plain_shape hp
  unfold allItems sources
  generalize fromItems s = l at hsh
  induction l with
  | nil => rfl
  | cons t l ih =>
    simp only [List.flatMap_cons, List.map_append]
    rw [tables_brings ν (hsh t (by simp)), ih fun t ht => hsh t (by simp [ht])]

theorem sources_sub {s : Select} (hp : Plain s) (y : Select) :
    (∃ t ∈ fromItems s, y ∈ fromSubs t) ↔ ∃ a, (a, .derived y) ∈ sources norm s := by
  have hsh := plain_shape hp
  unfold sources
  simp only [List.mem_flatMap]
  constructor
  · rintro ⟨t, ht, h⟩
    obtain ⟨a, h⟩ := (subs_brings (norm := norm) (hsh t ht) y).mp h
    exact ⟨a, t, ht, h⟩
  · rintro ⟨a, t, ht, h⟩
    exact ⟨t, ht, (subs_brings (norm := norm) (hsh t ht) y).mpr ⟨a, h⟩⟩

/-- What `Describes` says, part by part. -/
structure Shown (pick : List TableExpr → List TableExpr) (norm : Str → Str) (ν : Nat → Str) (s : Select)
    (sc : Scope) : Prop where
  name : sc.name = ν s.id
  tables : sc.tables = (pick (fromItems s)).flatMap (fromTables norm ν)
  fields : ∃ all, List.Forall₂ (FieldOf ν) (places norm s) all ∧
    sc.fields = all.filter fun f => f.columns ≠ []
  asked : ∀ p ∈ places norm s, ∀ y, Asks p.2.2 y → ∃ z ∈ sc.fieldScopes, Describes pick norm ν y z
  asks : ∀ z ∈ sc.fieldScopes, ∃ y, (∃ p ∈ places norm s, Asks p.2.2 y) ∧ Describes pick norm ν y z
  sub : ∀ t ∈ fromItems s, ∀ y ∈ fromSubs t, ∃ z ∈ sc.subScopes, Describes pick norm ν y z
  subs : ∀ z ∈ sc.subScopes, ∃ y, (∃ t ∈ fromItems s, y ∈ fromSubs t) ∧ Describes pick norm ν y z

theorem describes_shown {pick : List TableExpr → List TableExpr} {ν : Nat → Str} {s : Select} {sc : Scope}
    (h : Describes pick norm ν s sc) : Shown pick norm ν s sc := by
  cases h with
  | mk _ all xs ys fs ss h1 h2 h3 h4 h5 =>
    refine ⟨rfl, rfl, ⟨all, h1, rfl⟩, ?_, ?_, ?_, ?_⟩
    · intro p hp y hy
      exact forall₂_left h4 y ((h2 y).mpr ⟨p, hp, hy⟩)
    · intro z hz
      obtain ⟨y, hy, hd⟩ := forall₂_right h4 z hz
      exact ⟨y, (h2 y).mp hy, hd⟩
    · intro t ht y hy
      exact forall₂_left h5 y ((h3 y).mpr ⟨t, ht, hy⟩)
    · intro z hz
      obtain ⟨y, hy, hd⟩ := forall₂_right h5 z hz
      exact ⟨y, (h3 y).mp hy, hd⟩

theorem subOf_below {s y : Select} (h : SubOf norm s y) : Below (.s s) (.s y) := by
  rcases h with ⟨t, ht, h⟩ | ⟨p, hp, h⟩
  · exact fromItems_below s y t ht h
  · exact places_asks s p hp y h

theorem fromSubs_sizeOf (t : TableExpr) (y : Select) (h : y ∈ fromSubs t) : sizeOf y < sizeOf t := by
  have := below_sizeOf (fromSubs_below t y h)
  fun_induction fromSubs t with
  | case1 t as l ih => have := ih h (below_sizeOf (fromSubs_below t y h)); simp; omega
  | case2 l r c ih1 ih2 =>
    rcases List.mem_append.mp h with h | h
    · have := ih1 h (below_sizeOf (fromSubs_below _ y h)); simp; omega
    · have := ih2 h (below_sizeOf (fromSubs_below _ y h)); simp; omega
  | case3 i s => simp at h; subst h; simp; omega
  | case4 => simp at h

/-- the scope of a nested select is inside -/
theorem below_inside {pick : List TableExpr → List TableExpr} {ν : Nat → Str} (x : Select) (n : Nat) :
    ∀ (s : Select) (sc : Scope), sizeOf sc ≤ n → Plain s → Describes pick norm ν s sc →
      Below (.s s) (.s x) → ∃ z, Inside z sc ∧ Describes pick norm ν x z := by
  induction n with
  | zero => intro s sc h; cases sc; simp at h
  | succ n ih =>
    intro s sc hn hp hd hb
    rcases below_select (norm := norm) hp hb with rfl | ⟨y, hy, hb⟩
    · exact ⟨sc, .here, hd⟩
    · have hpy := plain_below hp (subOf_below hy)
      have hs := describes_shown hd
      rcases hy with ⟨t, ht, hy⟩ | ⟨p, hpp, hy⟩
      · obtain ⟨z, hz, hdz⟩ := hs.sub t ht y hy
        have : sizeOf z < sizeOf sc := by
          obtain ⟨_, _, _, _, ss⟩ := sc
          have := List.sizeOf_lt_of_mem (show z ∈ ss from hz)
          simp; omega
        obtain ⟨w, h1, h2⟩ := ih y z (by omega) hpy hdz hb
        exact ⟨w, .sub hz h1, h2⟩
      · obtain ⟨z, hz, hdz⟩ := hs.asked p hpp y hy
        have : sizeOf z < sizeOf sc := by
          obtain ⟨_, _, fs, _, _⟩ := sc
          have := List.sizeOf_lt_of_mem (show z ∈ fs from hz)
          simp; omega
        obtain ⟨w, h1, h2⟩ := ih y z (by omega) hpy hdz hb
        exact ⟨w, .field hz h1, h2⟩

/-- every scope inside is that of a nested select -/
theorem inside_below {pick : List TableExpr → List TableExpr} {ν : Nat → Str} {sc z : Scope}
    (h : Inside z sc) : ∀ s, Describes pick norm ν s sc →
      ∃ x, Below (.s s) (.s x) ∧ Describes pick norm ν x z := by
  induction h with
  | here => intro s hd; exact ⟨s, below_refl _, hd⟩
  | sub hy _ ih =>
    intro s hd
    obtain ⟨y, h1, h2⟩ := (describes_shown hd).subs _ hy
    obtain ⟨x, h3, h4⟩ := ih y h2
    exact ⟨x, below_trans (subOf_below (norm := norm) (.inl h1)) h3, h4⟩
  | field hy _ ih =>
    intro s hd
    obtain ⟨y, h1, h2⟩ := (describes_shown hd).asks _ hy
    obtain ⟨x, h3, h4⟩ := ih y h2
    exact ⟨x, below_trans (subOf_below (norm := norm) (.inr h1)) h3, h4⟩

theorem name_mem (s : Scope) : s.name ∈ scopeNames s := by
  cases s; simp [scopeNames, Scope.name]

theorem sublist_flatMap {α β : Type} {f : α → List β} {l : List α} {a : α} (h : a ∈ l) :
    (f a).Sublist (l.flatMap f) := by
  induction l with
  | nil => cases h
  | cons b l ih =>
    rw [List.flatMap_cons]
    rcases List.mem_cons.mp h with rfl | h
    · exact List.sublist_append_left _ _
    · exact (ih h).trans (List.sublist_append_right _ _)

/-- names that are different and made up, in a scope and so in all scopes inside -/
structure Clear (s : Scope) : Prop where
  nodup : (scopeNames s).Nodup
  angle : ∀ n ∈ scopeNames s, n.head? = some '<'

theorem Clear.sub {s y : Scope} (h : Clear s) (hy : y ∈ s.subScopes) : Clear y := by
  obtain ⟨n, f, fs, t, ss⟩ := s
  have hm : (scopeNames y).Sublist (scopesNames ss) := by
    rw [scopesNames_flat]
    exact sublist_flatMap hy
  have hs : (scopeNames y).Sublist (scopeNames (.mk n f fs t ss)) := by
    rw [scopeNames]
    exact ((hm.trans (List.sublist_append_right _ _)).trans (List.sublist_cons_self _ _))
  exact ⟨h.nodup.sublist hs, fun n hn => h.angle n (hs.subset hn)⟩

theorem Clear.field {s y : Scope} (h : Clear s) (hy : y ∈ s.fieldScopes) : Clear y := by
  obtain ⟨n, f, fs, t, ss⟩ := s
  have hm : (scopeNames y).Sublist (scopesNames fs) := by
    rw [scopesNames_flat]
    exact sublist_flatMap hy
  have hs : (scopeNames y).Sublist (scopeNames (.mk n f fs t ss)) := by
    rw [scopeNames]
    exact ((hm.trans (List.sublist_append_left _ _)).trans (List.sublist_cons_self _ _))
  exact ⟨h.nodup.sublist hs, fun n hn => h.angle n (hs.subset hn)⟩

theorem Clear.inside {s y : Scope} (hi : Inside y s) (h : Clear s) : Clear y := by
  induction hi with
  | here => exact h
  | sub hy _ ih => exact ih (h.sub hy)
  | field hy _ ih => exact ih (h.field hy)

theorem flat_inj {l : List Scope} (h : (scopesNames l).Nodup) {x y : Scope} (hx : x ∈ l) (hy : y ∈ l)
    (e : x.name = y.name) : x = y := by
  induction l with
  | nil => cases hx
  | cons a l ih =>
    rw [scopesNames, List.nodup_append] at h
    obtain ⟨h1, h2, h3⟩ := h
    have hne : ∀ z ∈ l, z.name ≠ a.name := fun z hz e => h3 _ (name_mem a) _
      (by rw [scopesNames_flat]; exact List.mem_flatMap.mpr ⟨z, hz, name_mem z⟩) e.symm
    rcases List.mem_cons.mp hx with hx' | hx' <;> rcases List.mem_cons.mp hy with hy' | hy'
    · rw [hx', hy']
    · exact absurd (e.symm.trans (by rw [hx'])) (hne _ hy')
    · exact absurd (e.trans (by rw [hy'])) (hne _ hx')
    · exact ih h2 hx' hy'

theorem Clear.sub_inj {s x y : Scope} (h : Clear s) (hx : x ∈ s.subScopes) (hy : y ∈ s.subScopes)
    (e : x.name = y.name) : x = y := by
  obtain ⟨n, f, fs, t, ss⟩ := s
  have := h.nodup
  rw [scopeNames, List.nodup_cons, List.nodup_append] at this
  exact flat_inj this.2.2.1 hx hy e

theorem Clear.field_ne {s x y : Scope} (h : Clear s) (hx : x ∈ s.fieldScopes) (hy : y ∈ s.subScopes) :
    x.name ≠ y.name := by
  obtain ⟨n, f, fs, t, ss⟩ := s
  have := h.nodup
  rw [scopeNames, List.nodup_cons, List.nodup_append] at this
  exact this.2.2.2 _ (by rw [scopesNames_flat]; exact List.mem_flatMap.mpr ⟨x, hx, name_mem x⟩) _
    (by rw [scopesNames_flat]; exact List.mem_flatMap.mpr ⟨y, hy, name_mem y⟩)

/-! ## Columns -/

theorem Shown.field_place {pick : List TableExpr → List TableExpr} {ν : Nat → Str} {s : Select} {sc : Scope}
    (h : Shown pick norm ν s sc) (f : Field) (hf : f ∈ sc.fields) :
    ∃ p ∈ places norm s, FieldOf ν p f := by
  obtain ⟨all, h1, h2⟩ := h.fields
  rw [h2] at hf
  exact forall₂_right h1 f (List.mem_of_mem_filter hf)

theorem Shown.place_field {pick : List TableExpr → List TableExpr} {ν : Nat → Str} {s : Select} {sc : Scope}
    (h : Shown pick norm ν s sc) (p : Str × FieldType × Expr) (hp : p ∈ places norm s) {a n : Str}
    (hm : Mentions p.2.2 (.column a n)) :
    ∃ f ∈ sc.fields, FieldOf ν p f ∧ ({ table := a, name := n, type := p.2.1 } : FieldColumn) ∈ f.columns := by
  obtain ⟨all, h1, h2⟩ := h.fields
  obtain ⟨f, hf, hpf⟩ := forall₂_left h1 p hp
  have hc := (hpf.2.1 _).mpr (.inl ⟨a, n, hm, rfl⟩)
  refine ⟨f, ?_, hpf, hc⟩
  rw [h2, List.mem_filter]
  exact ⟨hf, by simpa using List.ne_nil_of_mem hc⟩

/-- a field named `n` stands for an expression that may be taken for a column `n` -/
theorem offers_of {ν : Nat → Str} {p : Str × FieldType × Expr} {f : Field} (h : FieldOf ν p f) {n : Str}
    (hn : n ≠ []) (ho : label f = n) : Offers p n := by
  rw [← outName_eq] at ho
  unfold Field.outName at ho
  split at ho
  · exact .inl (h.1 ▸ ho)
  · next he =>
    refine .inr ⟨by rw [← h.1]; simpa using he, ?_⟩
    split at ho
    · next c hc =>
      rcases (h.2.1 c).mp (by rw [hc]; simp) with ⟨t, m, hm, rfl⟩ | ⟨t, _, rfl⟩ | ⟨x, _, rfl⟩
      · exact ⟨t, by rw [← ho]; exact hm⟩
      · exact absurd ho.symm hn
      · exact absurd ho.symm hn
    · exact absurd ho.symm hn

theorem gives_name {ν : Nat → Str} {p : Str × FieldType × Expr} {f : Field} (h : FieldOf ν p f) {n : Str}
    (hn : n ≠ []) (hg : Gives p n) : label f = n := by
  rw [← outName_eq]
  unfold Field.outName
  rcases hg with e | ⟨e, parts, hp, hn'⟩
  · rw [h.1, e, if_pos hn]
  · rw [h.1, e, if_neg (by simp)]
    obtain ⟨c, hc⟩ := List.length_eq_one_iff.mp (h.2.2 parts hp)
    rw [hc]
    rcases (h.2.1 c).mp (by rw [hc]; simp) with ⟨t, m, hm, rfl⟩ | ⟨t, hm, rfl⟩ | ⟨x, hx, rfl⟩
    · rw [hp] at hm
      cases hm with
      | column => exact hn'
      | operand _ y _ hy _ => simp [operands] at hy
    · rw [hp] at hm
      cases hm with
      | operand _ y _ hy _ => simp [operands] at hy
    · rw [hp] at hx
      cases hx with
      | operand _ y _ hy _ => simp [operands] at hy

theorem silent_scope {pick : List TableExpr → List TableExpr} {ν : Nat → Str} {y : Select} {z : Scope}
    (hd : Describes pick norm ν y z) {n : Str} (hn : n ≠ []) (hs : Silent norm y n) :
    ¬HasStar z.fields ∧ ∀ f ∈ z.fields, label f ≠ n := by
  have h := describes_shown hd
  constructor
  · rintro ⟨f, hf, c, hc, hty⟩
    obtain ⟨p, hp, hpf⟩ := h.field_place f hf
    rcases (hpf.2.1 c).mp hc with ⟨t, m, hm, rfl⟩ | ⟨t, hm, rfl⟩ | ⟨x, _, rfl⟩
    · rcases places_type y p hp with e | e <;> simp [e] at hty
    · exact (hs p hp).2 t hm
    · cases hty
  · intro f hf e
    obtain ⟨p, hp, hpf⟩ := h.field_place f hf
    exact (hs p hp).1 (offers_of hpf hn e)

/-- What the lemmas below need of the select, its scope and the database. -/
structure Setting (norm : Str → Str) (Has : Str → Str → Prop) (db : Name → Option TableSchema)
    (ν : Nat → Str) (s : Select) (sc : Scope) : Prop where
  plain : Plain s
  names : OrdinaryNames norm s
  describes : Describes allItems norm ν s sc
  clear : Clear sc
  has : ∀ t n, Real db t n → Has t n
  real : ∀ t n, Real db t n → n ≠ [] ∧ t.head? ≠ some '<'

section
variable {Has : Str → Str → Prop} {db : Name → Option TableSchema} {ν : Nat → Str} {s : Select} {sc : Scope}

theorem Setting.table_iff (h : Setting norm Has db ν s sc) (a t : Str) :
    (∃ T ∈ sc.tables, refName T = a ∧ T.name = t) ↔ ∃ q ∈ sources norm s, srcKey ν q = (a, t) := by
  have e := tables_sources (norm := norm) ν h.plain
  rw [← (describes_shown h.describes).tables] at e
  have : (a, t) ∈ sc.tables.map (fun T => (refName T, T.name)) ↔
      (a, t) ∈ (sources norm s).map (srcKey ν) := by rw [e]
  simpa [List.mem_map] using this

theorem Setting.sub_angle (h : Setting norm Has db ν s sc) {x : Scope}
    (hx : x ∈ sc.subScopes ++ sc.fieldScopes) : x.name.head? = some '<' := by
  rcases List.mem_append.mp hx with hx | hx
  · exact (h.clear.sub hx).angle _ (name_mem x)
  · exact (h.clear.field hx).angle _ (name_mem x)

theorem Setting.derived_angle (h : Setting norm Has db ν s sc) {a : Str} {y : Select}
    (hq : (a, .derived y) ∈ sources norm s) : (ν y.id).head? = some '<' := by
  obtain ⟨t, ht, hy⟩ := (sources_sub (norm := norm) h.plain y).mpr ⟨a, hq⟩
  obtain ⟨z, hz, hd⟩ := (describes_shown h.describes).sub t ht y hy
  rw [← describes_named hd]
  exact h.sub_angle (List.mem_append_left _ hz)

/-- a name that does not begin with `<` means what it means in the FROM clause -/
theorem Setting.calls (h : Setting norm Has db ν s sc) {a : Str} (ha : a.head? ≠ some '<') (hne : a ≠ [])
    {src : Src} (hn : Named norm s a src) : Calls sc a (srcKey ν (a, src)).2 := by
  constructor
  · obtain ⟨T, hT, h1, _⟩ := (h.table_iff a (srcKey ν (a, src)).2).mpr ⟨_, hn.1, by
      cases src <;> simp [srcKey, hne]⟩
    exact ⟨T, hT, h1⟩
  · intro T hT e
    obtain ⟨⟨b, src'⟩, hq, he⟩ := (h.table_iff a T.name).mp ⟨T, hT, e, rfl⟩
    have hb : b = a := by
      cases src' with
      | table t => simp [srcKey] at he; exact he.1
      | derived y =>
        simp only [srcKey, Prod.mk.injEq] at he
        by_cases hb : b = []
        · exfalso
          simp only [hb, ne_eq, not_true_eq_false, if_false] at he
          rw [← he.1] at ha
          exact ha (h.derived_angle hq)
        · simpa [hb] using he.1
    subst hb
    rw [hn.2 src' hq] at he
    rw [he]

theorem Setting.sub (h : Setting norm Has db ν s sc) {y : Select} {z : Scope} (hz : z ∈ sc.subScopes)
    (hy : SubOf norm s y) (hd : Describes allItems norm ν y z) : Setting norm Has db ν y z where
  plain := plain_below h.plain (subOf_below hy)
  names := fun x hx => h.names x (below_trans (subOf_below hy) hx)
  describes := hd
  clear := h.clear.sub hz
  has := h.has
  real := h.real

/-- the one column of a FROM subquery that has the name -/
theorem Setting.find (h : Setting norm Has db ν s sc) {n a' n' : Str} {p : Str × FieldType × Expr}
    (hn : n ≠ []) (hp : p ∈ places norm s) (hg : Gives p n)
    (huniq : ∀ p' ∈ places norm s, Offers p' n → p' = p) (hm : Mentions p.2.2 (.column a' n')) :
    ∃ f, sc.fields.find? (label · = n) = some f ∧
      ∃ u ∈ f.columns, IsUse u ∧ u.table = a' ∧ u.name = n' := by
  have hs := describes_shown h.describes
  obtain ⟨f0, hf0, hpf0, -⟩ := hs.place_field p hp hm
  cases hfind : sc.fields.find? (label · = n) with
  | none =>
    rw [List.find?_eq_none] at hfind
    exact absurd (gives_name hpf0 hn hg) (by simpa using hfind f0 hf0)
  | some f =>
    refine ⟨f, rfl, ?_⟩
    obtain ⟨p', hp', hpf⟩ := hs.field_place f (List.mem_of_find?_eq_some hfind)
    have e := huniq p' hp' (offers_of hpf hn (by simpa using List.find?_some hfind))
    rw [e] at hpf
    refine ⟨_, (hpf.2.1 _).mpr (.inl ⟨a', n', hm, rfl⟩), ?_, rfl, rfl⟩
    constructor <;> rcases places_type s p hp with e | e <;> simp [e]

/-- a name in the query means the same in its scope -/
theorem denotes_means {a n t m : Str} (hd : Denotes norm Has s a n t m)
    (hr : ∀ x b, Below (.s s) (.s x) → (b, .table t) ∈ sources norm x → ∀ n, Has t n → Real db t n) :
    ∀ sc, Setting norm Has db ν s sc → ∀ c : FieldColumn, c.table = a → c.name = n →
      Means db sc c t m := by
  induction hd with
  | qualified s a n t ha hn ht =>
    intro sc h c ec en
    subst ec en
    have hreal := hr s _ (below_refl _) hn.1 _ ht
    have hang := (h.real _ _ hreal).2
    have haa := h.names s (below_refl _) _ hn.1
    refine .own ⟨?_, hreal, ?_, .inl ⟨ha, h.calls haa ha hn, ?_⟩⟩
    · obtain ⟨T, hT, _, h2⟩ := (h.table_iff c.table t).mpr ⟨_, hn.1, rfl⟩
      exact ⟨T, hT, h2⟩
    · intro x hx e
      exact hang (e ▸ h.sub_angle hx)
    · intro x hx e
      exact haa (e ▸ h.sub_angle (List.mem_append_right _ hx))
  | only s b n t hb ht huniq hsil =>
    intro sc h c ec en
    subst en
    have hreal := hr s _ (below_refl _) hb _ ht
    have hang := (h.real _ _ hreal).2
    refine .own ⟨?_, hreal, ?_, .inr ⟨ec, ?_, ?_⟩⟩
    · obtain ⟨T, hT, _, h2⟩ := (h.table_iff b t).mpr ⟨_, hb, rfl⟩
      exact ⟨T, hT, h2⟩
    · intro x hx e
      exact hang (e ▸ h.sub_angle hx)
    · intro T hT hT'
      obtain ⟨⟨b', src'⟩, hq, he⟩ := (h.table_iff (refName T) T.name).mp ⟨T, hT, rfl, rfl⟩
      cases src' with
      | table t' =>
        simp only [srcKey, Prod.mk.injEq] at he
        rw [← he.2]
        exact huniq b' t' hq (h.has _ _ (he.2 ▸ hT'))
      | derived y =>
        simp only [srcKey, Prod.mk.injEq] at he
        exact absurd (he.2 ▸ h.derived_angle hq) (h.real _ _ hT').2
    · intro x hx
      have hs := describes_shown h.describes
      rcases List.mem_append.mp hx with hx | hx
      · obtain ⟨y, h1, h2⟩ := hs.subs x hx
        exact silent_scope h2 (h.real _ _ hreal).1 (hsil y (.inl h1))
      · obtain ⟨y, h1, h2⟩ := hs.asks x hx
        exact silent_scope h2 (h.real _ _ hreal).1 (hsil y (.inr h1))
  | derived s y a n a' n' t m p ha hn hnm hp hg huniq hm _ ih =>
    intro sc h c ec en
    subst ec en
    have haa := h.names s (below_refl _) _ hnm.1
    have hsub := (sources_sub (norm := norm) h.plain y).mpr ⟨_, hnm.1⟩
    obtain ⟨ti, hti, hy⟩ := hsub
    obtain ⟨z, hz, hdz⟩ := (describes_shown h.describes).sub ti hti y hy
    have hset := h.sub hz (.inl ⟨ti, hti, hy⟩) hdz
    obtain ⟨f, hf, u, hu, huse, hut, hun⟩ := hset.find hn hp hg huniq hm
    refine .derived hz (fun x hx e => h.clear.sub_inj hx hz e) (fun x hx => h.clear.field_ne hx hz) hn hf
      (.inl ⟨ha, ?_, ?_⟩) hu huse (ih ?_ z hset u hut hun)
    · have := h.calls haa ha hnm
      rw [describes_named hdz]
      exact this
    · intro x hx e
      exact haa (e ▸ h.sub_angle (List.mem_append_right _ hx))
    · intro x b hx
      exact hr x b (below_trans (subOf_below (norm := norm) (.inl ⟨ti, hti, hy⟩)) hx)
  | derivedOnly s y b n a' n' t m p hn hb hno hsil hp hg huniq hm _ ih =>
    intro sc h c ec en
    subst en
    have hsub := (sources_sub (norm := norm) h.plain y).mpr ⟨_, hb⟩
    obtain ⟨ti, hti, hy⟩ := hsub
    have hs := describes_shown h.describes
    obtain ⟨z, hz, hdz⟩ := hs.sub ti hti y hy
    have hset := h.sub hz (.inl ⟨ti, hti, hy⟩) hdz
    obtain ⟨f, hf, u, hu, huse, hut, hun⟩ := hset.find hn hp hg huniq hm
    refine .derived hz (fun x hx e => h.clear.sub_inj hx hz e) (fun x hx => h.clear.field_ne hx hz) hn hf
      (.inr ⟨ec, ?_, ?_⟩) hu huse (ih ?_ z hset u hut hun)
    · intro T hT hT'
      obtain ⟨⟨b', src'⟩, hq, he⟩ := (h.table_iff (refName T) T.name).mp ⟨T, hT, rfl, rfl⟩
      cases src' with
      | table t' =>
        simp only [srcKey, Prod.mk.injEq] at he
        exact hno b' t' hq (h.has _ _ (he.2 ▸ hT'))
      | derived y =>
        simp only [srcKey, Prod.mk.injEq] at he
        exact absurd (he.2 ▸ h.derived_angle hq) (h.real _ _ hT').2
    · intro x hx
      rcases List.mem_append.mp hx with hx | hx
      · obtain ⟨y', h1, h2⟩ := hs.subs x hx
        rcases hsil y' (.inl h1) with rfl | h3
        · exact .inl (h.clear.sub_inj hx hz (by rw [describes_named h2, describes_named hdz]))
        · exact .inr (silent_scope h2 hn h3)
      · obtain ⟨y', h1, h2⟩ := hs.asks x hx
        rcases hsil y' (.inr h1) with rfl | h3
        · exact absurd (by rw [describes_named h2, describes_named hdz]) (h.clear.field_ne hx hz)
        · exact .inr (silent_scope h2 hn h3)
    · intro x b hx
      exact hr x b (below_trans (subOf_below (norm := norm) (.inl ⟨ti, hti, hy⟩)) hx)

/-- every use in the query is a use in its scope -/
theorem uses_scope (h : Setting norm Has db ν s sc) {t n : Str} {ty : FieldType}
    (hr : ∀ x b, Below (.s s) (.s x) → (b, .table t) ∈ sources norm x → ∀ n, Has t n → Real db t n)
    (hu : UsesColumn norm Has s t n ty) : Fields.Uses db sc t n ty := by
  obtain ⟨x, hx, p, hp, hty, a, m, hm, hd⟩ := hu
  have hpx := plain_below h.plain hx
  rcases hd with hd | ⟨rfl, o, ho, hd⟩
  · obtain ⟨z, hz, hdz⟩ := below_inside x _ s sc (Nat.le_refl _) h.plain h.describes hx
    obtain ⟨f, hf, -, hc⟩ := (describes_shown hdz).place_field p hp hm
    have hset : Setting norm Has db ν x z := ⟨hpx, fun y hy => h.names y (below_trans hx hy), hdz,
      Clear.inside hz h.clear, h.has, h.real⟩
    refine ⟨z, hz, f, hf, _, hc, ?_, hty, .inl ?_⟩
    · constructor <;> rcases places_type x p hp with e | e <;> simp [e]
    · exact denotes_means hd (fun y b hy => hr y b (below_trans hx hy)) z hset _ rfl rfl
  · obtain ⟨w, hw, hdw⟩ := below_inside o _ s sc (Nat.le_refl _) h.plain h.describes ho
    obtain ⟨⟨q, hq, hask⟩, ha, hnm, hhas, hno⟩ := hd
    have hsetw : Setting norm Has db ν o w := ⟨plain_below h.plain ho,
      fun y hy => h.names y (below_trans ho hy), hdw, Clear.inside hw h.clear, h.has, h.real⟩
    obtain ⟨z, hz, hdz⟩ := (describes_shown hdw).asked q hq x hask
    have hox : Below (.s o) (.s x) := subOf_below (norm := norm) (.inr ⟨q, hq, hask⟩)
    have hsetz : Setting norm Has db ν x z := ⟨hpx, fun y hy => h.names y (below_trans hx hy), hdz,
      hsetw.clear.field hz, h.has, h.real⟩
    obtain ⟨f, hf, -, hc⟩ := (describes_shown hdz).place_field p hp hm
    have haa : a.head? ≠ some '<' := h.names o ho _ hnm.1
    have hreal := hr o _ ho hnm.1 _ hhas
    have hang := (h.real _ _ hreal).2
    have hin : Inside z sc := by
      have key : ∀ u, Inside w u → Inside z u := by
        intro u hu
        induction hu with
        | here => exact .field hz .here
        | sub hy _ ih => exact .sub hy ih
        | field hy _ ih => exact .field hy ih
      exact key sc hw
    refine ⟨z, hin, f, hf, _, hc, ?_, hty, .inr ⟨rfl, w, hw, hz, ha, ?_, hreal, ?_, ?_, ?_⟩⟩
    · constructor <;> rcases places_type x p hp with e | e <;> simp [e]
    · exact hsetw.calls haa ha hnm
    · intro y hy e
      exact hang (e ▸ hsetw.sub_angle (List.mem_append_left _ hy))
    · intro T hT
      obtain ⟨⟨b', src'⟩, hq', he⟩ := (hsetz.table_iff (refName T) T.name).mp ⟨T, hT, rfl, rfl⟩
      obtain ⟨h1, h2⟩ := hno _ hq'
      cases src' with
      | table t' =>
        simp only [srcKey, Prod.mk.injEq] at he
        rw [← he.1, ← he.2]
        exact ⟨h1, fun e => h2 (by rw [e])⟩
      | derived y =>
        simp only [srcKey, Prod.mk.injEq] at he
        have := hsetz.derived_angle hq'
        rw [← he.1, ← he.2]
        refine ⟨?_, fun e => haa (show a.head? = _ from (show ν y.id = a from e) ▸ this)⟩
        split
        · exact h1
        · intro e
          exact haa ((show ν y.id = a from e) ▸ this)
    · intro y hy e
      exact haa ((show y.name = a from e) ▸ hsetz.sub_angle hy)

end

end Verif.PgScope
