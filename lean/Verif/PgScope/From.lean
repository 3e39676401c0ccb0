import Verif.PgScope.Mention
/-!
# FROM items and visits (helper lemmas)
-/
namespace Verif.PgScope
open Verif.Builder Verif.Fields Verif.Lib Verif.PgScope.Spec

/-! ## Visits of expressions -/

theorem mem_witemsEs (w : WItem) (es : List Expr) :
    w ∈ witemsEs es ↔ ∃ e ∈ es, w ∈ witemsE e := by
  induction es with
  | nil => simp [witemsEs]
  | cons e es ih => simp [witemsEs, ih]

theorem mem_witemsWs (w : WItem) (ws : List When) :
    w ∈ witemsWs ws ↔ ∃ e ∈ (ws.flatMap fun | .mk c v => [c, v]), w ∈ witemsE e := by
  induction ws with
  | nil => simp [witemsWs]
  | cons x ws ih =>
    obtain ⟨c, v⟩ := x
    rw [witemsWs, witemsW, List.mem_append, List.mem_append, ih, List.flatMap_cons]
    simp [or_assoc]

/-- the expressions of an OVER clause that are visited -/
def overNear : Over → List Expr
  | .none => []
  | .mk ps _ .none => ps
  | .mk ps _ (.mk a z) => ps ++ boundExprs a ++ boundExprs z

theorem mem_witemsOver (d : Bool) (i : Nat) (b : Body) (o : Over) :
    .sub d i b ∈ witemsOver o ↔ ∃ e ∈ overNear o, .sub d i b ∈ witemsE e := by
  have hb : ∀ o, .sub d i b ∈ witemsBound o ↔ ∃ e ∈ boundExprs o, .sub d i b ∈ witemsE e := by
    intro o
    cases o <;> simp [witemsBound, boundExprs]
  cases o with
  | none => simp [witemsOver, overNear]
  | mk ps os f =>
    cases f with
    | none => simp [witemsOver, witemsFrame, overNear, mem_witemsEs]
    | mk a z =>
      simp [witemsOver, witemsFrame, overNear, mem_witemsEs, hb, or_and_right, exists_or]

/-- the operands of an expression that are visited -/
def visited : Expr → List Expr
  | .node true kids => kids
  | .case subject whens els => [subject, els] ++ whens.flatMap fun | .mk c v => [c, v]
  | .func args filter over _ => args ++ [filter] ++ overNear over
  | .tupleStar e => [e]
  | .columnAccess e _ => [e]
  | _ => []

theorem mem_witems (d : Bool) (i : Nat) (b : Body) (x : Expr) :
    .sub d i b ∈ witemsE x ↔ (d = false ∧ x = .subquery i b) ∨
      ∃ y ∈ visited x, .sub d i b ∈ witemsE y := by
  cases x with
  | leaf known ok => cases known <;> simp [witemsE, visited]
  | node known kids => cases known <;> simp [witemsE, visited, mem_witemsEs]
  | case subject whens els =>
    simp [witemsE, visited, mem_witemsWs, or_and_right, exists_or]
  | func args filter over orderBy =>
    simp only [witemsE, visited, List.mem_append, mem_witemsOver, mem_witemsEs, List.mem_cons,
      List.not_mem_nil, or_false, reduceCtorEq, or_and_right, exists_or, exists_eq_left, and_false,
      false_or]
    constructor
    · rintro ((h | h) | h)
      · exact .inr h
      · exact .inl (.inl h)
      · exact .inl (.inr h)
    · rintro ((h | h) | h)
      · exact .inl (.inr h)
      · exact .inr h
      · exact .inl (.inl h)
  | tupleStar e => simp [witemsE, visited]
  | columnAccess e c => simp [witemsE, visited]
  | subquery id body =>
    simp [witemsE, visited]
    intro _
    rw [eq_comm (a := i), eq_comm (a := b)]
  | _ => simp [witemsE, visited]

/-- what is visited is an operand, or contains no subquery -/
theorem visited_operands (x y : Expr) (d : Bool) (i : Nat) (b : Body) (hy : y ∈ visited x)
    (h : .sub d i b ∈ witemsE y) : y ∈ operands x := by
  cases x with
  | node known kids => cases known <;> simp [visited] at hy; simpa [operands] using hy
  | case => exact hy
  | func args filter over orderBy =>
    simp only [visited, List.mem_append, List.mem_cons, List.not_mem_nil, or_false] at hy
    simp only [operands, List.mem_append, List.mem_cons, List.not_mem_nil, or_false, List.mem_filter]
    rcases hy with (hy | hy) | hy
    · refine .inl (.inl (.inl ⟨hy, ?_⟩))
      cases y with
      | unqualifiedStar => simp [witemsE] at h
      | _ => rfl
    · exact .inl (.inl (.inr hy))
    · refine .inl (.inr ?_)
      cases over with
      | none => simp [overNear] at hy
      | mk ps os f =>
        cases f with
        | none =>
          rw [overNear] at hy
          rw [overExprs]
          exact List.mem_append_left _ hy
        | mk a z =>
          simp only [overNear, List.mem_append] at hy
          simp only [overExprs, List.mem_append]
          rcases hy with (hy | hy) | hy
          · exact .inl (.inl (.inl hy))
          · exact .inl (.inr hy)
          · exact .inr hy
  | tupleStar e =>
    simp [visited] at hy
    subst hy
    cases y with
    | name parts s => simp [witemsE] at h
    | _ => simp [operands]
  | columnAccess e c =>
    simp [visited] at hy
    subst hy
    cases y with
    | name parts s => simp [witemsE] at h
    | _ => simp [operands]
  | _ => simp [visited] at hy

theorem witems_asks (d : Bool) (i : Nat) (s : Select) (e : Expr)
    (h : .sub d i (.paren s) ∈ witemsE e) : Asks e s := by
  induction e using operand_induction with
  | h x ih =>
    rw [mem_witems] at h
    rcases h with ⟨_, rfl⟩ | ⟨y, hy, h⟩
    · exact .subquery i s
    · have hy' := visited_operands x y d i _ hy h
      exact .operand x y s hy' (ih y hy' h)

theorem asks_below (e : Expr) (s : Select) (h : Asks e s) :
    ∃ i, Below (.e e) (.e (.subquery i (.paren s))) := by
  induction h with
  | subquery i s => exact ⟨i, below_refl _⟩
  | operand x y s hy _ ih =>
    obtain ⟨i, h⟩ := ih
    exact ⟨i, below_trans (operands_below x y hy) h⟩

/-- a subquery in one of the places not visited -/
def RemoteSub (x : Nd) : Prop :=
  ∃ y z i b, Below x y ∧ z ∈ remote y ∧ Below z (.e (.subquery i b))

theorem RemoteSub.up {x y : Nd} (h : Below x y) (hr : RemoteSub y) : RemoteSub x := by
  obtain ⟨a, z, i, b, h1, h2, h3⟩ := hr
  exact ⟨a, z, i, b, below_trans h h1, h2, h3⟩

theorem operands_visited (x y : Expr) (hy : y ∈ operands x) :
    (y ∈ visited x ∧ ∀ w ∈ witemsE y, w ∈ witemsE x) ∨ .noise .unknown ∈ witemsE x ∨
      .e y ∈ remote (.e x) := by
  cases x with
  | node known kids =>
    cases known with
    | false => exact .inr (.inl (by simp [witemsE]))
    | true =>
      refine .inl ⟨hy, ?_⟩
      intro w hw
      simp only [witemsE, if_true, List.mem_append, mem_witemsEs]
      exact .inl ⟨y, hy, hw⟩
  | case subject whens els =>
    refine .inl ⟨hy, ?_⟩
    intro w hw
    simp only [operands, List.mem_append, List.mem_cons, List.not_mem_nil, or_false] at hy
    simp only [witemsE, List.mem_append, mem_witemsWs]
    rcases hy with (rfl | rfl) | hy
    · exact .inl (.inl (.inl hw))
    · exact .inl (.inl (.inr hw))
    · exact .inl (.inr ⟨y, hy, hw⟩)
  | func args filter over orderBy =>
    simp only [operands, List.mem_append, List.mem_cons, List.not_mem_nil, or_false,
      List.mem_filter] at hy
    have hov : y ∈ overNear over → ∀ w ∈ witemsE y, w ∈ witemsOver over := by
      intro hy w hw
      have hb : ∀ o, y ∈ boundExprs o → w ∈ witemsBound o := by
        intro o ho
        cases o <;> simp [boundExprs] at ho
        subst ho
        simp [witemsBound, hw]
      cases over with
      | none => simp [overNear] at hy
      | mk ps os f =>
        cases f with
        | none =>
          simp only [witemsOver, List.mem_append, mem_witemsEs]
          exact .inl (.inl ⟨y, hy, hw⟩)
        | mk a z =>
          simp only [overNear, List.mem_append] at hy
          simp only [witemsOver, witemsFrame, List.mem_append, mem_witemsEs]
          rcases hy with (hy | hy) | hy
          · exact .inl (.inl ⟨y, hy, hw⟩)
          · exact .inl (.inr (.inl (.inl (hb a hy))))
          · exact .inl (.inr (.inl (.inr (hb z hy))))
    rcases hy with ((hy | hy) | hy) | hy
    · refine .inl ⟨by simp [visited, hy.1], ?_⟩
      intro w hw
      simp only [witemsE, List.mem_append, mem_witemsEs]
      exact .inl (.inl (.inr ⟨y, hy.1, hw⟩))
    · subst hy
      refine .inl ⟨by simp [visited], ?_⟩
      intro w hw
      simp only [witemsE, List.mem_append]
      exact .inl (.inr hw)
    · have : y ∈ overNear over ∨ .e y ∈ overOrder over := by
        cases over with
        | none => simp [overExprs] at hy
        | mk ps os f =>
          cases f with
          | none =>
            simp only [overExprs, List.mem_append] at hy
            rcases hy with hy | hy
            · exact .inl hy
            · exact .inr (by simp [overOrder, hy])
          | mk a z =>
            simp only [overExprs, List.mem_append] at hy
            rcases hy with ((hy | hy) | hy) | hy
            · exact .inl (by simp [overNear, hy])
            · exact .inr (by simp [overOrder, hy])
            · exact .inl (by simp [overNear, hy])
            · exact .inl (by simp [overNear, hy])
      rcases this with h | h
      · refine .inl ⟨by simp [visited, h], ?_⟩
        intro w hw
        simp only [witemsE, List.mem_append]
        exact .inl (.inl (.inl (hov h w hw)))
      · exact .inr (.inr (by simp [remote, h]))
    · exact .inr (.inr (by simp [remote, hy]))
  | tupleStar e =>
    cases e <;> simp [operands] at hy <;> subst hy <;>
      exact .inl ⟨by simp [visited], by intro w hw; rw [witemsE]; exact List.mem_append_left _ hw⟩
  | columnAccess e c =>
    cases e <;> simp [operands] at hy <;> subst hy <;>
      exact .inl ⟨by simp [visited], by intro w hw; rw [witemsE]; exact List.mem_append_left _ hw⟩
  | _ => simp [operands] at hy

theorem asks_witems (e : Expr) (s : Select) (h : Asks e s) :
    (∃ i, .sub false i (.paren s) ∈ witemsE e) ∨ .noise .unknown ∈ witemsE e ∨ RemoteSub (.e e) := by
  induction h with
  | subquery i s => exact .inl ⟨i, by simp [witemsE]⟩
  | operand x y s hy ha ih =>
    rcases operands_visited x y hy with ⟨_, h⟩ | h | h
    · rcases ih with ⟨i, h1⟩ | h1 | h1
      · exact .inl ⟨i, h _ h1⟩
      · exact .inr (.inl (h _ h1))
      · exact .inr (.inr (h1.up (operands_below x y hy)))
    · exact .inr (.inl h)
    · obtain ⟨i, h1⟩ := asks_below y s ha
      exact .inr (.inr ⟨.e x, .e y, i, _, below_refl _, h, h1⟩)

/-! ## FROM items -/

/-- every node below is plain -/
def PlainT (t : TableExpr) : Prop := ∀ z, Below (.t t) z → PlainNode z

theorem PlainT.aliased {t : TableExpr} {as : Str} {l : Bool} (h : PlainT (.aliased t as l)) :
    PlainT t := fun z hz => h z (below_near (y := .t t) (by simp [near]) hz)

theorem PlainT.left {l r : TableExpr} {c : Cond} (h : PlainT (.join l r c)) : PlainT l :=
  fun z hz => h z (below_near (y := .t l) (by cases c <;> simp [near]) hz)

theorem PlainT.right {l r : TableExpr} {c : Cond} (h : PlainT (.join l r c)) : PlainT r :=
  fun z hz => h z (below_near (y := .t r) (by cases c <;> simp [near]) hz)

theorem PlainT.on {l r : TableExpr} {e : Expr} (h : PlainT (.join l r (.on e))) : PlainE e :=
  fun z hz => h z (below_near (y := .e e) (by simp [near]) hz)

theorem PlainT.row {items : List Expr} (h : PlainT (.rowsFrom items)) (e : Expr) (he : e ∈ items) :
    PlainE e :=
  fun z hz => h z (below_near (y := .e e) (by simp [near, he]) hz)

theorem PlainT.not_paren {t : TableExpr} (h : PlainT (.paren t)) : False := by
  cases h _ (below_refl _)

theorem PlainT.alias {t : TableExpr} {as : Str} {l : Bool} (h : PlainT (.aliased t as l)) :
    (∀ t' a l, t ≠ .aliased t' a l) ∧ (∀ t', t ≠ .paren t') := by
  cases h _ (below_refl _)
  constructor <;> assumption

theorem PlainT.operands {l r : TableExpr} {c : Cond} (h : PlainT (.join l r c)) : ¬Bare l ∧ ¬Bare r := by
  cases h _ (below_refl _)
  constructor <;> assumption

/-- the nodes a FROM item consists of -/
inductive Shape : TableExpr → Prop where
  | tableName (c s t as : Str) (l : Bool) : Shape (.aliased (.tableName c s t) as l)
  | objectName (ps : List Str) (as : Str) (l : Bool) : Shape (.aliased (.objectName ps) as l)
  | statementSource (as : Str) (l : Bool) : Shape (.aliased .statementSource as l)
  | tableRef (as : Str) (l : Bool) : Shape (.aliased .tableRef as l)
  | derived (i : Nat) (s : Select) (as : Str) (l : Bool) :
      Shape (.aliased (.subquery i (.paren s)) as l)
  | aliasedRows (items : List Expr) (as : Str) (l : Bool) : (∀ e ∈ items, PlainE e) →
      Shape (.aliased (.rowsFrom items) as l)
  | aliasedJoin (l r : TableExpr) (c : Cond) (as : Str) (lat : Bool) : Shape l → Shape r →
      (∀ e, c = .on e → PlainE e) → Shape (.aliased (.join l r c) as lat)
  | join (l r : TableExpr) (c : Cond) : Shape l → Shape r →
      (∀ e, c = .on e → PlainE e) → Shape (.join l r c)
  | rows (items : List Expr) : (∀ e ∈ items, PlainE e) → Shape (.rowsFrom items)
  | bareObject (ps : List Str) : Shape (.objectName ps)
  | bareSource : Shape .statementSource
  | bareRef : Shape .tableRef

theorem shape_of (n : Nat) : ∀ t : TableExpr, sizeOf t ≤ n → PlainT t → ¬Bare t → Shape t := by
  induction n with
  | zero => intro t h; cases t <;> simp at h
  | succ n ih =>
    intro t hn h hb
    have hj : ∀ l r c, sizeOf (TableExpr.join l r c) ≤ n + 1 → PlainT (.join l r c) →
        Shape l ∧ Shape r ∧ ∀ e, c = .on e → PlainE e := by
      intro l r c hs hp
      simp at hs
      refine ⟨ih l (by omega) hp.left hp.operands.1, ih r (by omega) hp.right hp.operands.2, ?_⟩
      rintro e rfl
      exact hp.on
    cases t with
    | aliased t as l =>
      cases t with
      | aliased t' a l' => exact absurd rfl (h.alias.1 t' a l')
      | paren t' => exact absurd rfl (h.alias.2 t')
      | subquery i b =>
        have hq := h.aliased _ (below_refl _)
        cases hq with
        | derived _ _ hb => obtain ⟨s, rfl⟩ := hb; exact .derived i s as l
      | join l' r' c =>
        obtain ⟨h1, h2, h3⟩ := hj l' r' c (by simp at hn ⊢; omega) h.aliased
        exact .aliasedJoin l' r' c as l h1 h2 h3
      | rowsFrom items => exact .aliasedRows items as l fun e he => h.aliased.row e he
      | tableName => exact .tableName _ _ _ _ _
      | objectName => exact .objectName _ _ _
      | statementSource => exact .statementSource _ _
      | tableRef => exact .tableRef _ _
    | paren => exact h.not_paren.elim
    | subquery => exact absurd trivial hb
    | join l r c =>
      obtain ⟨h1, h2, h3⟩ := hj l r c hn h
      exact .join l r c h1 h2 h3
    | rowsFrom items => exact .rows items fun e he => h.row e he
    | tableName => exact absurd trivial hb
    | objectName => exact .bareObject _
    | statementSource => exact .bareSource
    | tableRef => exact .bareRef

theorem Shape.noParen {t : TableExpr} (h : Shape t) : noParen t = true := by
  induction h with
  | aliasedJoin l r c as lat _ _ _ ih1 ih2 => simp [PgScope.noParen, ih1, ih2]
  | join l r c _ _ _ ih1 ih2 => simp [PgScope.noParen, ih1, ih2]
  | _ => rfl

variable {norm : Str → Str} {schema : Str}

theorem cond_ok (c : Cond) (h : ∀ e, c = .on e → PlainE e) : ∀ i ∈ citemsCond norm schema c, i.Ok := by
  intro i hi
  cases c with
  | none => simp [citemsCond] at hi
  | natural => simp [citemsCond] at hi; subst hi; trivial
  | on e => simp [citemsCond] at hi; subst hi; exact citems_ok e (h e rfl)
  | «using» cols =>
    simp [citemsCond] at hi
    obtain ⟨a, _, rfl⟩ := hi
    intro i hi
    simp at hi
    subst hi
    simp

theorem rows_ok (items : List Expr) (h : ∀ e ∈ items, PlainE e) :
    ∀ i ∈ rowItems norm schema items, i.Ok := by
  intro i hi
  simp [rowItems] at hi
  obtain ⟨e, he, rfl⟩ := hi
  exact citems_ok e (h e he)

theorem Shape.ok {t : TableExpr} (h : Shape t) : ∀ i ∈ titems norm schema t, i.Ok := by
  induction h with
  | tableName | objectName =>
    intro i hi
    simp only [titems] at hi
    split at hi <;> simp at hi <;> subst hi <;> trivial
  | derived i s as l => intro i hi; simp [titems] at hi; subst hi; exact ⟨s, rfl⟩
  | aliasedRows items as l h => intro i hi; rw [titems] at hi; exact rows_ok items h i hi
  | rows items h => intro i hi; rw [titems] at hi; exact rows_ok items h i hi
  | aliasedJoin l r c as lat _ _ hc ih1 ih2 =>
    intro i hi
    simp only [titems, List.mem_append] at hi
    rcases hi with hi | hi | hi
    · exact ih1 i hi
    · exact ih2 i hi
    · exact cond_ok c hc i hi
  | join l r c _ _ hc ih1 ih2 =>
    intro i hi
    simp only [titems, List.mem_append] at hi
    rcases hi with hi | hi | hi
    · exact ih1 i hi
    · exact ih2 i hi
    · exact cond_ok c hc i hi
  | _ => intro i hi; simp [titems] at hi; subst hi; trivial

/-- the field of a place -/
def placeField (norm : Str → Str) (schema : Str) (ν : Nat → Str) (x : Str × FieldType × Expr) : Field :=
  ⟨x.1, colsOf ν (citemsE norm schema x.2.1 x.2.2)⟩

theorem terr_append (a b : List TItem) : terr (a ++ b) = (terr b).or (terr a) := by
  induction a with
  | nil => simp [terr]
  | cons i r ih => rw [List.cons_append, terr, terr, ih]; cases terr b <;> rfl

theorem terr_append_none {a b : List TItem} (h : terr (a ++ b) = none) :
    terr a = none ∧ terr b = none := by
  rw [terr_append] at h
  simpa [and_comm] using h

theorem using_citem (c : Str) : citemsE norm schema .condition (.name [norm c] false) =
    [.col { table := [], name := norm c, type := .condition }] := by
  have : schemaSpecified schema [norm c] 2 = false := by simp [schemaSpecified]
  rw [citemsE, this]
  rfl

theorem cond_fields (ν : Nat → Str) (c : Cond) (h : terr (citemsCond norm schema c) = none) :
    (citemsCond norm schema c).flatMap (TItem.fields ν) =
      (condPlaces norm c).map (placeField norm schema ν) := by
  cases c with
  | none => rfl
  | natural => simp [citemsCond, terr, TItem.errOf] at h
  | on e => rfl
  | «using» cols =>
    simp only [citemsCond, condPlaces]
    clear h
    induction cols with
    | nil => rfl
    | cons c cs ih =>
      rw [List.map_cons, List.flatMap_cons, ih, List.map_cons, List.map_cons]
      simp only [placeField, using_citem]
      rfl

theorem rows_fields (ν : Nat → Str) (items : List Expr) :
    (rowItems norm schema items).flatMap (TItem.fields ν) =
      (items.map fun e => (([] : Str), FieldType.reference, e)).map (placeField norm schema ν) := by
  induction items with
  | nil => rfl
  | cons e es ih =>
    rw [rowItems, List.map_cons, List.flatMap_cons, ← rowItems, ih, List.map_cons, List.map_cons]
    rfl

theorem Shape.fields {t : TableExpr} (ν : Nat → Str) (h : Shape t)
    (he : terr (titems norm schema t) = none) :
    (titems norm schema t).flatMap (TItem.fields ν) =
      (fromPlaces norm t).map (placeField norm schema ν) := by
  induction h with
  | tableName | objectName =>
    simp only [titems, fromPlaces]
    split <;> rfl
  | derived i s as l => rfl
  | aliasedRows items as l h => simp only [titems, fromPlaces]; exact rows_fields ν items
  | rows items h => simp only [titems, fromPlaces]; exact rows_fields ν items
  | aliasedJoin l r c as lat _ _ hc ih1 ih2 =>
    rw [titems] at he
    obtain ⟨h1, h2⟩ := terr_append_none he
    obtain ⟨h2, h3⟩ := terr_append_none h2
    simp only [titems, fromPlaces, List.flatMap_append, List.map_append, ih1 h1, ih2 h2,
      cond_fields ν c h3, List.append_assoc]
  | join l r c _ _ hc ih1 ih2 =>
    rw [titems] at he
    obtain ⟨h1, h2⟩ := terr_append_none he
    obtain ⟨h2, h3⟩ := terr_append_none h2
    simp only [titems, fromPlaces, List.flatMap_append, List.map_append, ih1 h1, ih2 h2,
      cond_fields ν c h3, List.append_assoc]
  | _ => rfl

theorem cond_tabs (ν : Nat → Str) (c : Cond) :
    (citemsCond norm schema c).flatMap (TItem.tabs norm ν) = [] := by
  cases c with
  | «using» cols => simp [citemsCond, TItem.tabs]
  | _ => rfl

theorem rows_tabs (ν : Nat → Str) (items : List Expr) :
    (rowItems norm schema items).flatMap (TItem.tabs norm ν) = [] := by
  simp [rowItems, TItem.tabs]

theorem Shape.tabs {t : TableExpr} (ν : Nat → Str) (h : Shape t)
    (he : terr (titems norm schema t) = none) :
    (titems norm schema t).flatMap (TItem.tabs norm ν) = fromTables norm ν t := by
  induction h with
  | tableName | objectName =>
    simp only [titems, fromTables] at he ⊢
    split
    · rename_i h
      rw [if_pos h] at he
      simp [terr, TItem.errOf] at he
    · rfl
  | derived i s as l => rfl
  | aliasedRows items as l h => simp only [titems, fromTables]; exact rows_tabs ν items
  | rows items h => simp only [titems, fromTables]; exact rows_tabs ν items
  | aliasedJoin l r c as lat _ _ hc ih1 ih2 =>
    rw [titems] at he
    obtain ⟨h1, h2⟩ := terr_append_none he
    obtain ⟨h2, h3⟩ := terr_append_none h2
    simp only [titems, fromTables, List.flatMap_append, ih1 h1, ih2 h2, cond_tabs, List.append_nil]
  | join l r c _ _ hc ih1 ih2 =>
    rw [titems] at he
    obtain ⟨h1, h2⟩ := terr_append_none he
    obtain ⟨h2, h3⟩ := terr_append_none h2
    simp only [titems, fromTables, List.flatMap_append, ih1 h1, ih2 h2, cond_tabs, List.append_nil]
  | _ => rfl

/-- what is visited in a FROM item was registered before -/
theorem Shape.reg {t : TableExpr} (h : Shape t) (i : Nat) (s : Select) :
    (.sub true i (.paren s) ∈ witemsT t → s.id ∈ (titems norm schema t).flatMap TItem.regsS ∧
      s ∈ fromSubs t) ∧
    (.sub false i (.paren s) ∈ witemsT t → s.id ∈ (titems norm schema t).flatMap TItem.regsF ∧
      ∃ p ∈ fromPlaces norm t, Asks p.2.2 s) := by
  have hE : ∀ e d, .sub d i (.paren s) ∈ witemsE e → d = false ∧ Asks e s ∧
      ∀ ty, s.id ∈ cregs (citemsE norm schema ty e) := by
    intro e d hm
    have ha := witems_asks d i s e hm
    refine ⟨(wsubE e d i _ hm).1, ha, fun ty => ?_⟩
    exact List.mem_filterMap.mpr ⟨_, (asks_iff s e).mpr ha, rfl⟩
  have hrows : ∀ items d, .sub d i (.paren s) ∈ witemsEs items → d = false ∧
      s.id ∈ (rowItems norm schema items).flatMap TItem.regsF ∧
      ∃ p ∈ (items.map fun e => (([] : Str), FieldType.reference, e)), Asks p.2.2 s := by
    intro items d hm
    rw [mem_witemsEs] at hm
    obtain ⟨e, he, hm⟩ := hm
    obtain ⟨h1, h2, h3⟩ := hE e d hm
    refine ⟨h1, ?_, _, List.mem_map.mpr ⟨e, he, rfl⟩, h2⟩
    refine List.mem_flatMap.mpr ⟨.field (citemsE norm schema .reference e), ?_, h3 _⟩
    exact List.mem_map.mpr ⟨e, he, rfl⟩
  have hcond : ∀ c d, .sub d i (.paren s) ∈ witemsC c → d = false ∧
      s.id ∈ (citemsCond norm schema c).flatMap TItem.regsF ∧
      ∃ p ∈ condPlaces norm c, Asks p.2.2 s := by
    intro c d hm
    cases c with
    | on e =>
      simp [witemsC] at hm
      obtain ⟨h1, h2, h3⟩ := hE e d hm
      refine ⟨h1, ?_, _, List.mem_singleton.mpr rfl, h2⟩
      simp [citemsCond, TItem.regsF, h3]
    | _ => simp [witemsC] at hm
  have hjoin : ∀ l r c, 
      ((.sub true i (.paren s) ∈ witemsT l → s.id ∈ (titems norm schema l).flatMap TItem.regsS ∧
        s ∈ fromSubs l) ∧
      (.sub false i (.paren s) ∈ witemsT l → s.id ∈ (titems norm schema l).flatMap TItem.regsF ∧
        ∃ p ∈ fromPlaces norm l, Asks p.2.2 s)) →
      ((.sub true i (.paren s) ∈ witemsT r → s.id ∈ (titems norm schema r).flatMap TItem.regsS ∧
        s ∈ fromSubs r) ∧
      (.sub false i (.paren s) ∈ witemsT r → s.id ∈ (titems norm schema r).flatMap TItem.regsF ∧
        ∃ p ∈ fromPlaces norm r, Asks p.2.2 s)) →
      (.sub true i (.paren s) ∈ witemsT (.join l r c) →
        s.id ∈ (titems norm schema (.join l r c)).flatMap TItem.regsS ∧ s ∈ fromSubs (.join l r c)) ∧
      (.sub false i (.paren s) ∈ witemsT (.join l r c) →
        s.id ∈ (titems norm schema (.join l r c)).flatMap TItem.regsF ∧
        ∃ p ∈ fromPlaces norm (.join l r c), Asks p.2.2 s) := by
    intro l r c ih1 ih2
    simp only [witemsT, titems, fromSubs, fromPlaces, List.mem_append, List.flatMap_append,
      List.mem_singleton, reduceCtorEq, or_false]
    constructor
    · rintro ((h | h) | h)
      · exact ⟨.inl (ih1.1 h).1, .inl (ih1.1 h).2⟩
      · exact ⟨.inr (.inl (ih2.1 h).1), .inr (ih2.1 h).2⟩
      · cases (hcond c true h).1
    · rintro ((h | h) | h)
      · obtain ⟨h1, p, h2, h3⟩ := ih1.2 h
        exact ⟨.inl h1, p, .inl (.inl h2), h3⟩
      · obtain ⟨h1, p, h2, h3⟩ := ih2.2 h
        exact ⟨.inr (.inl h1), p, .inl (.inr h2), h3⟩
      · obtain ⟨_, h1, p, h2, h3⟩ := hcond c false h
        exact ⟨.inr (.inr h1), p, .inr h2, h3⟩
  induction h with
  | derived j x as l =>
    simp only [witemsT, titems, fromSubs]
    constructor
    · intro h
      simp at h
      obtain ⟨_, rfl⟩ := h
      simp [TItem.regsS]
    · intro h
      simp at h
  | aliasedRows items as l h =>
    simp only [witemsT, titems, fromSubs, fromPlaces, List.mem_append, List.mem_singleton,
      reduceCtorEq, or_false, false_or]
    exact ⟨fun h => (nomatch (hrows items true h).1), fun h => (hrows items false h).2⟩
  | rows items h =>
    simp only [witemsT, titems, fromSubs, fromPlaces, List.mem_append, List.mem_singleton,
      reduceCtorEq, or_false]
    exact ⟨fun h => (nomatch (hrows items true h).1), fun h => (hrows items false h).2⟩
  | aliasedJoin l r c as lat _ _ hc ih1 ih2 =>
    have := hjoin l r c ih1 ih2
    rw [witemsT]
    simp only [List.mem_append, List.mem_singleton, reduceCtorEq, or_false, false_or]
    simpa only [titems, fromSubs, fromPlaces] using this
  | join l r c _ _ hc ih1 ih2 => exact hjoin l r c ih1 ih2
  | _ => simp [witemsT]

theorem Shape.walked {t : TableExpr} (h : Shape t) (s : Select) (hs : s ∈ fromSubs t) :
    ∃ i, .sub true i (.paren s) ∈ witemsT t := by
  induction h with
  | derived i x as l => simp [fromSubs] at hs; subst hs; exact ⟨i, by simp [witemsT]⟩
  | aliasedJoin l r c as lat _ _ hc ih1 ih2 =>
    simp only [fromSubs, List.mem_append] at hs
    rcases hs with hs | hs
    · obtain ⟨i, h⟩ := ih1 hs; exact ⟨i, by simp [witemsT, h]⟩
    · obtain ⟨i, h⟩ := ih2 hs; exact ⟨i, by simp [witemsT, h]⟩
  | join l r c _ _ hc ih1 ih2 =>
    simp only [fromSubs, List.mem_append] at hs
    rcases hs with hs | hs
    · obtain ⟨i, h⟩ := ih1 hs; exact ⟨i, by simp [witemsT, h]⟩
    · obtain ⟨i, h⟩ := ih2 hs; exact ⟨i, by simp [witemsT, h]⟩
  | _ => simp [fromSubs] at hs

theorem Shape.asked {t : TableExpr} (h : Shape t) (s : Select) (p : Str × FieldType × Expr)
    (hp : p ∈ fromPlaces norm t) (ha : Asks p.2.2 s) :
    (∃ i, .sub false i (.paren s) ∈ witemsT t) ∨ .noise .unknown ∈ witemsT t ∨ RemoteSub (.t t) := by
  have hrows : ∀ items t, (∀ w ∈ witemsEs items, w ∈ witemsT t) →
      (∀ e ∈ items, Below (.t t) (.e e)) →
      p ∈ (items.map fun e => (([] : Str), FieldType.reference, e)) →
      (∃ i, .sub false i (.paren s) ∈ witemsT t) ∨ .noise .unknown ∈ witemsT t ∨ RemoteSub (.t t) := by
    intro items t h1 h2 hp
    obtain ⟨e, he, rfl⟩ := List.mem_map.mp hp
    rcases asks_witems e s ha with ⟨i, h⟩ | h | h
    · exact .inl ⟨i, h1 _ ((mem_witemsEs _ _).mpr ⟨e, he, h⟩)⟩
    · exact .inr (.inl (h1 _ ((mem_witemsEs _ _).mpr ⟨e, he, h⟩)))
    · exact .inr (.inr (h.up (h2 e he)))
  have hjoin : ∀ l r c, (p ∈ fromPlaces norm l → (∃ i, .sub false i (.paren s) ∈ witemsT l) ∨
        .noise .unknown ∈ witemsT l ∨ RemoteSub (.t l)) →
      (p ∈ fromPlaces norm r → (∃ i, .sub false i (.paren s) ∈ witemsT r) ∨
        .noise .unknown ∈ witemsT r ∨ RemoteSub (.t r)) → p ∈ fromPlaces norm (.join l r c) →
      (∃ i, .sub false i (.paren s) ∈ witemsT (.join l r c)) ∨
        .noise .unknown ∈ witemsT (.join l r c) ∨ RemoteSub (.t (.join l r c)) := by
    intro l r c ih1 ih2 hp
    simp only [fromPlaces, List.mem_append] at hp
    rcases hp with (hp | hp) | hp
    · rcases ih1 hp with ⟨i, h⟩ | h | h
      · exact .inl ⟨i, by simp [witemsT, h]⟩
      · exact .inr (.inl (by simp [witemsT, h]))
      · exact .inr (.inr (h.up (below_near (y := .t l) (by cases c <;> simp [near]) (below_refl _))))
    · rcases ih2 hp with ⟨i, h⟩ | h | h
      · exact .inl ⟨i, by simp [witemsT, h]⟩
      · exact .inr (.inl (by simp [witemsT, h]))
      · exact .inr (.inr (h.up (below_near (y := .t r) (by cases c <;> simp [near]) (below_refl _))))
    · cases c with
      | on e =>
        simp only [condPlaces, List.mem_singleton] at hp
        subst hp
        rcases asks_witems e s ha with ⟨i, h⟩ | h | h
        · exact .inl ⟨i, by simp [witemsT, witemsC, h]⟩
        · exact .inr (.inl (by simp [witemsT, witemsC, h]))
        · exact .inr (.inr (h.up (below_near (y := .e e) (by simp [near]) (below_refl _))))
      | «using» cols => exact .inr (.inl (by simp [witemsT, witemsC]))
      | _ => simp [condPlaces] at hp
  induction h with
  | aliasedRows items as l h =>
    refine hrows items _ ?_ ?_ (by simpa only [fromPlaces] using hp)
    · intro w hw; simp [witemsT, hw]
    · intro e he
      exact below_near (y := .t (.rowsFrom items)) (by simp [near])
        (below_near (y := .e e) (by simp [near, he]) (below_refl _))
  | rows items h =>
    refine hrows items _ ?_ ?_ (by simpa only [fromPlaces] using hp)
    · intro w hw; simp [witemsT, hw]
    · intro e he
      exact below_near (y := .e e) (by simp [near, he]) (below_refl _)
  | aliasedJoin l r c as lat _ _ hc ih1 ih2 =>
    rcases hjoin l r c ih1 ih2 hp with ⟨i, h⟩ | h | h
    · exact .inl ⟨i, by rw [witemsT]; simp [h]⟩
    · exact .inr (.inl (by rw [witemsT]; simp [h]))
    · exact .inr (.inr (h.up (below_near (y := .t (.join l r c)) (by simp [near]) (below_refl _))))
  | join l r c _ _ hc ih1 ih2 => exact hjoin l r c ih1 ih2 hp
  | _ => simp [fromPlaces] at hp

end Verif.PgScope
