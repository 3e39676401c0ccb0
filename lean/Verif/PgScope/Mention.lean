import Verif.PgScope.ScopeSpec
import Verif.PgScope.Visit
/-!
# Contributions and mentions (helper lemmas)
-/
namespace Verif.PgScope
open Verif.Builder Verif.Fields Verif.Lib Verif.PgScope.Spec

/-- the frame lacks a bound -/
def openFrame : Over → Prop
  | .mk _ _ (.mk a z) => a = .none ∨ z = .none
  | _ => False

/-- what an expression contributes apart from its operands -/
def baseItems (norm : Str → Str) (schema : Str) (ty : FieldType) : Expr → List CItem
  | .leaf _ ok => if ok then [] else [.err .unsupportedExpr]
  | .name parts star =>
    if schemaSpecified schema parts 2 then [.err .explicitSchema]
    else if star then [.col { table := part parts 1, name := [], type := .star }]
    else [.col { table := part parts 1, name := part parts 0, type := ty }]
  | .unqualifiedStar => [.col { table := [], name := [], type := .star }]
  | .tupleStar (.name parts _) =>
    if schemaSpecified schema parts 1 then [.err .schemaInTuple]
    else [.col { table := part parts 0, name := [], type := .star }]
  | .columnAccess (.name parts _) col =>
    if schemaSpecified schema parts 1 then [.err .schemaInTuple]
    else [.col { table := part parts 0, name := col, type := ty }]
  | .allColumns table =>
    if schemaSpecified schema table 1 then [.err .explicitSchema]
    else [.col { table := part table 0, name := [], type := .star }]
  | .columnItem table col =>
    if schemaSpecified schema table 1 then [.err .explicitSchema]
    else [.col { table := part table 0, name := norm col, type := .reference }]
  | .subquery _ body => [.sub body]
  | _ => []

variable {norm : Str → Str} {schema : Str} {ty : FieldType}

theorem mem_citemsEs (it : CItem) (es : List Expr) :
    it ∈ citemsEs norm schema ty es ↔ ∃ e ∈ es, it ∈ citemsE norm schema ty e := by
  induction es with
  | nil => simp [citemsEs]
  | cons e es ih => simp [citemsEs, ih]

theorem mem_citemsArgs (it : CItem) (es : List Expr) :
    it ∈ citemsArgs norm schema ty es ↔
      ∃ e ∈ es.filter (fun a => !isStar a), it ∈ citemsE norm schema ty e := by
  induction es with
  | nil => simp [citemsArgs]
  | cons e es ih =>
    cases e with
    | unqualifiedStar => rw [citemsArgs, ih]; simp [isStar]
    | _ =>
      rw [citemsArgs]
      · rw [List.mem_append, ih]; simp [isStar]
      · intros; contradiction

theorem mem_citemsWs (it : CItem) (ws : List When) :
    it ∈ citemsWs norm schema ty ws ↔
      ∃ e ∈ (ws.flatMap fun | .mk c v => [c, v]), it ∈ citemsE norm schema ty e := by
  induction ws with
  | nil => simp [citemsWs]
  | cons w ws ih =>
    obtain ⟨c, v⟩ := w
    rw [citemsWs, citemsW, List.mem_append, List.mem_append, ih, List.flatMap_cons]
    simp [or_assoc]

theorem mem_citemsBound (it : CItem) (b : Bound) :
    it ∈ citemsBound norm schema ty b ↔
      (∃ e ∈ boundExprs b, it ∈ citemsE norm schema ty e) ∨ (it = .panic ∧ b = .none) := by
  cases b with
  | none => simp [citemsBound, boundExprs]
  | mk e => simp [citemsBound, boundExprs]

theorem mem_citemsOver (it : CItem) (o : Over) :
    it ∈ citemsOver norm schema ty o ↔
      (∃ e ∈ overExprs o, it ∈ citemsE norm schema ty e) ∨ (it = .panic ∧ openFrame o) := by
  cases o with
  | none => simp [citemsOver, overExprs, openFrame]
  | mk ps os f =>
    cases f with
    | none =>
      simp [citemsOver, citemsFrame, overExprs, openFrame, mem_citemsEs, or_and_right, exists_or]
    | mk a z =>
      simp only [citemsOver, citemsFrame, overExprs, openFrame, List.mem_append, mem_citemsEs,
        mem_citemsBound, or_and_right, exists_or]
      constructor
      · rintro (h | h | (h | h) | (h | h))
        · exact .inl (.inl (.inl (.inl h)))
        · exact .inl (.inl (.inl (.inr h)))
        · exact .inl (.inl (.inr h))
        · exact .inr ⟨h.1, .inl h.2⟩
        · exact .inl (.inr h)
        · exact .inr ⟨h.1, .inr h.2⟩
      · rintro ((((h | h) | h) | h) | ⟨h, h' | h'⟩)
        · exact .inl h
        · exact .inr (.inl h)
        · exact .inr (.inr (.inl (.inl h)))
        · exact .inr (.inr (.inr (.inl h)))
        · exact .inr (.inr (.inl (.inr ⟨h, h'⟩)))
        · exact .inr (.inr (.inr (.inr ⟨h, h'⟩)))

/-- an OVER clause with an open frame -/
def openFunc : Expr → Prop
  | .func _ _ over _ => openFrame over
  | _ => False

theorem citems_mem (it : CItem) (x : Expr) :
    it ∈ citemsE norm schema ty x ↔ it ∈ baseItems norm schema ty x ∨
      (∃ y ∈ operands x, it ∈ citemsE norm schema ty y) ∨ (it = .panic ∧ openFunc x) := by
  cases x with
  | nil => simp [citemsE, baseItems, operands, openFunc]
  | leaf known ok => simp [citemsE, baseItems, operands, openFunc]
  | node known kids => simp [citemsE, baseItems, operands, openFunc, mem_citemsEs]
  | case subject whens els =>
    rw [citemsE, List.mem_append, List.mem_append, mem_citemsWs]
    simp only [baseItems, operands, openFunc, List.not_mem_nil, false_or, and_false, or_false,
      List.mem_append, List.mem_cons, or_and_right, exists_or, exists_eq_left]
    constructor
    · rintro (h | h | h)
      · exact .inl (.inl h)
      · exact .inr h
      · exact .inl (.inr h)
    · rintro ((h | h) | h)
      · exact .inl h
      · exact .inr (.inr h)
      · exact .inr (.inl h)
  | func args filter over orderBy =>
    rw [citemsE, List.mem_append, List.mem_append, List.mem_append, mem_citemsArgs, mem_citemsOver,
      mem_citemsEs]
    simp only [baseItems, operands, openFunc, List.not_mem_nil, false_or,
      List.mem_append, List.mem_cons, or_false, or_and_right, exists_or, exists_eq_left]
    constructor
    · rintro (h | h | (h | h) | h)
      · exact .inl (.inl (.inl (.inl h)))
      · exact .inl (.inl (.inl (.inr h)))
      · exact .inl (.inl (.inr h))
      · exact .inr h
      · exact .inl (.inr h)
    · rintro ((((h | h) | h) | h) | h)
      · exact .inl h
      · exact .inr (.inl h)
      · exact .inr (.inr (.inl (.inl h)))
      · exact .inr (.inr (.inr h))
      · exact .inr (.inr (.inl (.inr h)))
  | name parts star => simp [citemsE, baseItems, operands, openFunc]
  | unqualifiedStar => simp [citemsE, baseItems, operands, openFunc]
  | tupleStar e =>
    cases e with
    | name parts b => simp [citemsE, baseItems, operands, openFunc]
    | _ =>
      rw [citemsE]
      · simp [baseItems, operands, openFunc]
      · intros; contradiction
  | columnAccess e col =>
    cases e with
    | name parts b => simp [citemsE, baseItems, operands, openFunc]
    | _ =>
      rw [citemsE]
      · simp [baseItems, operands, openFunc]
      · intros; contradiction
  | allColumns table => simp [citemsE, baseItems, operands, openFunc]
  | columnItem table col => simp [citemsE, baseItems, operands, openFunc]
  | subquery id body => simp [citemsE, baseItems, operands, openFunc]

theorem operands_kids (x y : Expr) (h : y ∈ operands x) : .e y ∈ kids (.e x) := by
  unfold kids
  rw [List.mem_append]
  cases x with
  | node known ks => exact .inl (by simpa [near, operands] using h)
  | case subject whens els =>
    refine .inl ?_
    simp only [operands, List.mem_append, List.mem_cons, List.not_mem_nil, or_false,
      List.mem_flatMap] at h
    simp only [near, List.mem_append, List.mem_cons, List.not_mem_nil, or_false, List.mem_flatMap]
    rcases h with (rfl | rfl) | ⟨⟨c, v⟩, hw, h⟩
    · exact .inl (.inl rfl)
    · exact .inl (.inr rfl)
    · refine .inr ⟨.mk c v, hw, ?_⟩
      simp only [List.mem_cons, List.not_mem_nil, or_false] at h ⊢
      rcases h with rfl | rfl
      · exact .inl rfl
      · exact .inr rfl
  | func args filter over orderBy =>
    simp only [operands, List.mem_append, List.mem_cons, List.not_mem_nil, or_false,
      List.mem_filter] at h
    simp only [near, remote, List.mem_append, List.mem_cons, List.not_mem_nil, or_false,
      List.mem_map, Nd.e.injEq, exists_eq_right]
    rcases h with ((h | rfl) | h) | h
    · exact .inl (.inl (.inr h.1))
    · exact .inl (.inr rfl)
    · cases over with
      | none => simp [overExprs] at h
      | mk ps os f =>
        cases f with
        | none =>
          simp only [overExprs, List.mem_append] at h
          rcases h with h | h
          · exact .inl (.inl (.inl (by simp [overKids, h])))
          · exact .inr (.inl (by simp [overOrder, h]))
        | mk a z =>
          simp only [overExprs, List.mem_append] at h
          rcases h with ((h | h) | h) | h
          · exact .inl (.inl (.inl (by simp [overKids, h])))
          · exact .inr (.inl (by simp [overOrder, h]))
          · refine .inl (.inl (.inl ?_))
            cases a <;> simp [boundExprs] at h
            subst h
            simp [overKids, boundKids]
          · refine .inl (.inl (.inl ?_))
            cases z <;> simp [boundExprs] at h
            subst h
            simp [overKids, boundKids]
    · exact .inr (.inr h)
  | tupleStar e =>
    refine .inl ?_
    cases e <;> simp [operands] at h <;> subst h <;> simp [near]
  | columnAccess e c =>
    refine .inl ?_
    cases e <;> simp [operands] at h <;> subst h <;> simp [near]
  | _ => simp [operands] at h

theorem operands_sizeOf (x y : Expr) (h : y ∈ operands x) : sizeOf y < sizeOf x := by
  have := kids_sizeOf _ _ (operands_kids x y h)
  simpa using this

theorem operands_below (x y : Expr) (h : y ∈ operands x) : Below (.e x) (.e y) :=
  below_step (operands_kids x y h) (below_refl _)

/-- every node below is plain -/
def PlainE (e : Expr) : Prop := ∀ z, Below (.e e) z → PlainNode z

theorem PlainE.operand {x y : Expr} (hp : PlainE x) (h : y ∈ operands x) : PlainE y :=
  fun z hz => hp z (below_trans (operands_below x y h) hz)

/-- strong induction over operands -/
theorem operand_induction {P : Expr → Prop} (h : ∀ x, (∀ y ∈ operands x, P y) → P x) : ∀ x, P x := by
  intro x
  suffices ∀ n x, sizeOf x ≤ n → P x from this (sizeOf x) x (Nat.le_refl _)
  intro n
  induction n with
  | zero =>
    intro x hx
    cases x <;> simp at hx
  | succ n ih =>
    intro x hx
    refine h x fun y hy => ih y ?_
    have := operands_sizeOf x y hy
    omega

theorem asks_iff (s : Select) (e : Expr) : .sub (.paren s) ∈ citemsE norm schema ty e ↔ Asks e s := by
  constructor
  · induction e using operand_induction with
    | h x ih =>
      intro h
      rw [citems_mem] at h
      rcases h with h | ⟨y, hy, h⟩ | ⟨h, _⟩
      · revert h
        unfold baseItems
        split <;> (try split) <;> (try split) <;> simp
        rename_i i b
        rintro rfl
        exact .subquery i s
      · exact .operand x y s hy (ih y hy h)
      · cases h
  · intro h
    induction h with
    | subquery i s => simp [citemsE]
    | operand x y s hy _ ih =>
      rw [citems_mem]
      exact .inr (.inl ⟨y, hy, ih⟩)

theorem citems_sub_paren (b : Body) (e : Expr) (hp : PlainE e) (h : .sub b ∈ citemsE norm schema ty e) :
    ∃ s, b = .paren s := by
  induction e using operand_induction with
  | h x ih =>
    rw [citems_mem] at h
    rcases h with h | ⟨y, hy, h⟩ | ⟨h, _⟩
    · revert h
      unfold baseItems
      split <;> (try split) <;> (try split) <;> simp
      rename_i i b'
      rintro rfl
      have := hp _ (below_refl _)
      cases this
      assumption
    · exact ih y hy (hp.operand hy) h
    · cases h

theorem citems_no_panic (e : Expr) (hp : PlainE e) : .panic ∉ citemsE norm schema ty e := by
  induction e using operand_induction with
  | h x ih =>
    intro h
    rw [citems_mem] at h
    rcases h with h | ⟨y, hy, h⟩ | ⟨_, h⟩
    · revert h
      unfold baseItems
      split <;> (try split) <;> (try split) <;> simp
    · exact ih y hy (hp.operand hy) h
    · have hx := hp _ (below_refl _)
      cases x with
      | func args filter over orderBy =>
        cases hx with
        | func _ _ _ _ hb =>
          cases over with
          | none => exact h
          | mk ps os f =>
            cases f with
            | none => exact h
            | mk a z =>
              obtain ⟨h1, h2⟩ := hb ps os a z rfl
              rcases h with h | h
              · exact h1 h
              · exact h2 h
      | _ => exact h

theorem citems_ok (e : Expr) (hp : PlainE e) : COk (citemsE norm schema ty e) := by
  intro i hi
  constructor
  · rintro rfl
    exact citems_no_panic e hp hi
  · rintro b rfl
    exact citems_sub_paren b e hp hi

/-- the column of a mention -/
def refCol (ty : FieldType) : Ref → FieldColumn
  | .column t n => { table := t, name := n, type := ty }
  | .star t => { table := t, name := [], type := .star }

theorem col_mentions (c : FieldColumn) (e : Expr) (hp : PlainE e)
    (h : .col c ∈ citemsE norm schema ty e) : ∃ m, Mentions e m ∧ c = refCol ty m := by
  induction e using operand_induction with
  | h x ih =>
    rw [citems_mem] at h
    rcases h with h | ⟨y, hy, h⟩ | ⟨h, _⟩
    · cases x with
      | name parts star =>
        simp only [baseItems] at h
        split at h
        · simp at h
        · split at h
          · rename_i hs
            subst hs
            simp at h
            exact ⟨_, .star parts, h⟩
          · rename_i hs
            simp at hs
            subst hs
            simp at h
            exact ⟨_, .column parts, h⟩
      | unqualifiedStar =>
        simp [baseItems] at h
        exact ⟨_, .all, h⟩
      | tupleStar e =>
        cases e with
        | name parts b =>
          simp only [baseItems] at h
          split at h
          · simp at h
          · simp at h
            exact ⟨_, .tuple parts b, h⟩
        | _ => simp [baseItems] at h
      | columnAccess e col =>
        cases e with
        | name parts b =>
          simp only [baseItems] at h
          split at h
          · simp at h
          · simp at h
            exact ⟨_, .access parts b col, h⟩
        | _ => simp [baseItems] at h
      | allColumns t => cases hp _ (below_refl _)
      | columnItem t c => cases hp _ (below_refl _)
      | leaf known ok => cases ok <;> simp [baseItems] at h
      | _ => simp [baseItems] at h
    · obtain ⟨m, h1, h2⟩ := ih y hy (hp.operand hy) h
      exact ⟨m, .operand x y m hy h1, h2⟩
    · cases h

theorem mentions_col (m : Ref) (e : Expr) (h : Mentions e m) :
    .col (refCol ty m) ∈ citemsE norm schema ty e ∨ ∃ er, .err er ∈ citemsE norm schema ty e := by
  induction h with
  | column parts =>
    simp only [citemsE]
    split
    · exact .inr ⟨_, List.mem_singleton.mpr rfl⟩
    · exact .inl (List.mem_singleton.mpr rfl)
  | star parts =>
    simp only [citemsE]
    split
    · exact .inr ⟨_, List.mem_singleton.mpr rfl⟩
    · exact .inl (List.mem_singleton.mpr rfl)
  | all => exact .inl (by simp [citemsE, refCol])
  | tuple parts b =>
    simp only [citemsE]
    split
    · exact .inr ⟨_, List.mem_singleton.mpr rfl⟩
    · exact .inl (List.mem_singleton.mpr rfl)
  | access parts b col =>
    simp only [citemsE]
    split
    · exact .inr ⟨_, List.mem_singleton.mpr rfl⟩
    · exact .inl (List.mem_singleton.mpr rfl)
  | operand x y m hy _ ih =>
    rcases ih with h | ⟨er, h⟩
    · exact .inl ((citems_mem _ x).mpr (.inr (.inl ⟨y, hy, h⟩)))
    · exact .inr ⟨er, (citems_mem _ x).mpr (.inr (.inl ⟨y, hy, h⟩))⟩

theorem cerr_none {items : List CItem} (h : cerr items = none) (er : Err) : .err er ∉ items := by
  intro hm
  unfold cerr at h
  rw [List.getLast?_eq_none_iff] at h
  have : er ∈ items.filterMap CItem.errOf := List.mem_filterMap.mpr ⟨_, hm, rfl⟩
  rw [h] at this
  cases this

theorem columns_iff (ν : Nat → Str) (e : Expr) (hp : PlainE e)
    (he : cerr (citemsE norm schema ty e) = none) (c : FieldColumn) :
    c ∈ colsOf ν (citemsE norm schema ty e) ↔ ColumnOf ν ty e c := by
  unfold colsOf ColumnOf
  rw [List.mem_filterMap]
  constructor
  · rintro ⟨it, hit, hc⟩
    cases it with
    | col c' =>
      simp only [CItem.colOf, Option.some.injEq] at hc
      subst hc
      obtain ⟨m, h1, h2⟩ := col_mentions c' e hp hit
      cases m with
      | column t n => exact .inl ⟨t, n, h1, h2⟩
      | star t => exact .inr (.inl ⟨t, h1, h2⟩)
    | sub b =>
      obtain ⟨s, rfl⟩ := citems_sub_paren b e hp hit
      simp only [CItem.colOf, Option.some.injEq] at hc
      exact .inr (.inr ⟨s, (asks_iff s e).mp hit, hc.symm⟩)
    | err _ => simp [CItem.colOf] at hc
    | panic => simp [CItem.colOf] at hc
  · have key : ∀ m, Mentions e m → .col (refCol ty m) ∈ citemsE norm schema ty e := by
      intro m hm
      rcases mentions_col (norm := norm) (schema := schema) (ty := ty) m e hm with h | ⟨er, h⟩
      · exact h
      · exact absurd h (cerr_none he er)
    rintro (⟨t, n, h, rfl⟩ | ⟨t, h, rfl⟩ | ⟨s, h, rfl⟩)
    · exact ⟨_, key _ h, rfl⟩
    · exact ⟨_, key _ h, rfl⟩
    · exact ⟨_, (asks_iff s e).mpr h, rfl⟩

end Verif.PgScope
