import Verif.MyScope.Names
/-!
# C71: the scope collected from a MySQL query
-/
namespace Verif.MyScope
open Verif.Builder Verif.Fields Verif.Lib Verif.MyScope.Spec

variable {norm : Str → Str}

/-! ## Expressions -/

mutual

theorem collectE_indep (ty : FieldType) : ∀ (e : Expr) (le : Option Err),
    (collectE norm ty e le).1 = (collectE norm ty e none).1
  | .nil, _ => rfl
  | .const, _ => rfl
  | .refused _, _ => rfl
  | .node ks _, le => by simp only [collectE]; exact collectEs_indep ty ks le
  | .column _ _ _, _ => rfl
  | .matchAgainst _ a, le => by simp only [collectE, andThen, collectE_indep ty a le]
  | .subquery _, _ => rfl

theorem collectEs_indep (ty : FieldType) : ∀ (es : List Expr) (le : Option Err),
    (collectEs norm ty es le).1 = (collectEs norm ty es none).1
  | [], _ => rfl
  | e :: es, le => by
    simp only [collectEs, andThen]
    rw [collectE_indep ty e le, collectEs_indep ty es _, collectEs_indep ty es (collectE norm ty e none).2]

end

theorem refuses_operands {x : Expr} (hx : ∀ ks, x ≠ .refused ks) :
    Refuses x ↔ ∃ y ∈ operands x, Refuses y := by
  constructor
  · intro h
    cases h with
    | here ks => exact absurd rfl (hx ks)
    | operand _ y hy h => exact ⟨y, hy, h⟩
  · rintro ⟨y, hy, h⟩
    exact .operand _ _ hy h

theorem not_refuses {x : Expr} (h : operands x = []) (hx : ∀ ks, x ≠ .refused ks) : ¬Refuses x := by
  rw [refuses_operands hx, h]
  simp

mutual

theorem collectE_err (ty : FieldType) : ∀ (e : Expr) (le : Option Err),
    (collectE norm ty e le).2 = none ↔ le = none ∧ ¬Refuses e
  | .nil, le => by simp [collectE, not_refuses (x := .nil) rfl nofun]
  | .const, le => by simp [collectE, not_refuses (x := .const) rfl nofun]
  | .refused ks, le => by simp [collectE, Refuses.here ks]
  | .node ks hs, le => by
    rw [refuses_operands (x := .node ks hs) nofun]
    simp only [collectE, operands]
    exact collectEs_err ty ks le
  | .column a b c, le => by simp [collectE, not_refuses (x := .column a b c) rfl nofun]
  | .matchAgainst cs a, le => by
    rw [refuses_operands (x := .matchAgainst cs a) nofun]
    simp only [collectE, andThen, operands, List.mem_singleton, exists_eq_left]
    exact collectE_err ty a le
  | .subquery q, le => by simp [collectE, not_refuses (x := .subquery q) rfl nofun]

theorem collectEs_err (ty : FieldType) : ∀ (es : List Expr) (le : Option Err),
    (collectEs norm ty es le).2 = none ↔ le = none ∧ ¬∃ e ∈ es, Refuses e
  | [], le => by simp [collectEs]
  | e :: es, le => by
    simp only [collectEs, andThen]
    rw [collectEs_err ty es _, collectE_err ty e le]
    simp only [List.mem_cons, exists_eq_or_imp, not_or, and_assoc]

end

theorem columnOf_operands {ty : FieldType} {x : Expr} {c : FieldColumn}
    (h1 : ∀ t n, Mentions x t n → ∃ y ∈ operands x, Mentions y t n)
    (h2 : Asks x → ∃ y ∈ operands x, Asks y) :
    ColumnOf norm ty (.expr x) c ↔ ∃ y ∈ operands x, ColumnOf norm ty (.expr y) c := by
  constructor
  · rintro (⟨t, n, hm, e⟩ | ⟨ha, e⟩)
    · obtain ⟨y, hy, h⟩ := h1 t n hm
      exact ⟨y, hy, .inl ⟨t, n, h, e⟩⟩
    · obtain ⟨y, hy, h⟩ := h2 ha
      exact ⟨y, hy, .inr ⟨h, e⟩⟩
  · rintro ⟨y, hy, ⟨t, n, hm, e⟩ | ⟨ha, e⟩⟩
    · exact .inl ⟨t, n, .operand _ _ _ _ hy hm, e⟩
    · exact .inr ⟨.operand _ _ hy ha, e⟩

theorem columnOf_none {ty : FieldType} {x : Expr} {c : FieldColumn}
    (h1 : ∀ t n, ¬Mentions x t n) (h2 : ¬Asks x) : ¬ColumnOf norm ty (.expr x) c := by
  rintro (⟨t, n, hm, -⟩ | ⟨ha, -⟩)
  · exact h1 t n hm
  · exact h2 ha

mutual

theorem collectE_mem (ty : FieldType) (c : FieldColumn) : ∀ (e : Expr) (le : Option Err),
    c ∈ (collectE norm ty e le).1 ↔ ColumnOf norm ty (.expr e) c
  | .nil, le => by
    refine ⟨nofun, fun h => absurd h (columnOf_none ?_ ?_)⟩
    · rintro t n (_ | _ | ⟨_, _, _, _, hy, -⟩); simp [operands] at hy
    · rintro (_ | ⟨_, _, hy, -⟩); simp [operands] at hy
  | .const, le => by
    refine ⟨nofun, fun h => absurd h (columnOf_none ?_ ?_)⟩
    · rintro t n (_ | _ | ⟨_, _, _, _, hy, -⟩); simp [operands] at hy
    · rintro (_ | ⟨_, _, hy, -⟩); simp [operands] at hy
  | .refused ks, le => by
    refine ⟨nofun, fun h => absurd h (columnOf_none ?_ ?_)⟩
    · rintro t n (_ | _ | ⟨_, _, _, _, hy, -⟩); simp [operands] at hy
    · rintro (_ | ⟨_, _, hy, -⟩); simp [operands] at hy
  | .node ks hs, le => by
    rw [columnOf_operands]
    · simp only [collectE, operands]
      exact collectEs_mem ty c ks le
    · rintro t n (_ | _ | ⟨_, y, _, _, hy, h⟩); exact ⟨y, hy, h⟩
    · rintro (_ | ⟨_, y, hy, h⟩); exact ⟨y, hy, h⟩
  | .column sch t n, le => by
    simp only [collectE, List.mem_singleton]
    constructor
    · rintro rfl
      exact .inl ⟨t, n, .column _ _ _, rfl⟩
    · rintro (⟨t', n', hm, e⟩ | ⟨ha, -⟩)
      · cases hm with
        | column => exact e
        | operand _ _ _ _ hy _ => simp [operands] at hy
      · cases ha with | operand _ _ hy _ => simp [operands] at hy
  | .matchAgainst cs a, le => by
    simp only [collectE, andThen, List.mem_append, List.mem_map]
    rw [collectE_mem ty c a le]
    constructor
    · rintro (h | ⟨x, hx, rfl⟩)
      · rcases h with ⟨t, n, hm, e⟩ | ⟨ha, e⟩
        · exact .inl ⟨t, n, .operand _ a _ _ (by simp [operands]) hm, e⟩
        · exact .inr ⟨.operand _ a (by simp [operands]) ha, e⟩
      · exact .inl ⟨x.1, x.2, .columns _ _ _ _ hx, rfl⟩
    · rintro (⟨t, n, hm, e⟩ | ⟨ha, e⟩)
      · cases hm with
        | columns _ _ _ _ h => exact .inr ⟨(t, n), h, e.symm⟩
        | operand _ _ _ _ hy h =>
          simp only [operands, List.mem_singleton] at hy
          subst hy
          exact .inl (.inl ⟨t, n, h, e⟩)
      · cases ha with
        | operand _ _ hy h =>
          simp only [operands, List.mem_singleton] at hy
          subst hy
          exact .inl (.inr ⟨h, e⟩)
  | .subquery q, le => by
    simp only [collectE, List.mem_singleton]
    constructor
    · rintro rfl
      exact .inr ⟨.subquery _, rfl⟩
    · rintro (⟨t', n', hm, e⟩ | ⟨-, e⟩)
      · cases hm with | operand _ _ _ _ hy _ => simp [operands] at hy
      · exact e

theorem collectEs_mem (ty : FieldType) (c : FieldColumn) : ∀ (es : List Expr) (le : Option Err),
    c ∈ (collectEs norm ty es le).1 ↔ ∃ e ∈ es, ColumnOf norm ty (.expr e) c
  | [], le => by simp [collectEs]
  | e :: es, le => by
    simp only [collectEs, andThen, List.mem_append]
    rw [collectE_mem ty c e le, collectEs_mem ty c es _]
    simp only [List.mem_cons, exists_eq_or_imp]

end

theorem fieldOf_expr (ty : FieldType) (as : Str) (e : Expr) (le : Option Err) :
    FieldOf norm (as, ty, .expr e) ⟨as, (collectE norm ty e le).1⟩ := by
  refine ⟨rfl, fun c => collectE_mem ty c e le, ?_⟩
  intro sch t n h
  simp only [Item.expr.injEq] at h
  subst h
  rfl

/-! ## FROM -/

/-- what is refused in a FROM clause -/
def BadFrom (j : Join) : Prop := (∃ x, FromItem j x ∧ BadSource x) ∨ ∃ e ∈ joinConds j, Refuses e

/-- what is refused in an operand of a join -/
def BadRef (x : Ref) : Prop :=
  BadSource x ∨ (∃ j, (x = .join j ∨ ∃ as, x = .source (.join j) as) ∧ BadFrom j)

theorem fromItem_kids {l r : Ref} {on : Option Expr} {us : List Str} {x : Ref} :
    FromItem (.mk l r on us) x ↔ (x = l ∨ x = r) ∨
      ∃ j y, (y = l ∨ y = r) ∧ (y = .join j ∨ ∃ as, y = .source (.join j) as) ∧ FromItem j x := by
  constructor
  · intro h
    generalize hj : Join.mk l r on us = j at h
    induction h with
    | left => cases hj; exact .inl (.inl rfl)
    | right => cases hj; exact .inl (.inr rfl)
    | join j j' x h1 h2 ih1 _ =>
      rcases ih1 hj with h | ⟨j0, y, hy, hy', hf⟩
      · exact .inr ⟨j', _, h, .inl rfl, h2⟩
      · exact .inr ⟨j0, y, hy, hy', .join _ _ _ hf h2⟩
    | source j j' as x h1 h2 ih1 _ =>
      rcases ih1 hj with h | ⟨j0, y, hy, hy', hf⟩
      · exact .inr ⟨j', _, h, .inr ⟨_, rfl⟩, h2⟩
      · exact .inr ⟨j0, y, hy, hy', .source _ _ _ _ hf h2⟩
  · rintro ((rfl | rfl) | ⟨j, y, hy, hy', h⟩)
    · exact .left _ _ _ _
    · exact .right _ _ _ _
    · have hf : FromItem (.mk l r on us) y := by
        rcases hy with rfl | rfl
        · exact .left _ _ _ _
        · exact .right _ _ _ _
      rcases hy' with rfl | ⟨as, rfl⟩
      · exact .join _ _ _ hf h
      · exact .source _ _ _ _ hf h

theorem badFrom_kids (l r : Ref) (on : Option Expr) (us : List Str) :
    BadFrom (.mk l r on us) ↔ BadRef l ∨ BadRef r ∨ ∃ e ∈ on, Refuses e := by
  have hc : ∀ e, (e ∈ refConds l ∨ e ∈ refConds r) ↔
      ∃ y j, (y = l ∨ y = r) ∧ (y = .join j ∨ ∃ as, y = .source (.join j) as) ∧ e ∈ joinConds j := by
    intro e
    have : ∀ y : Ref, e ∈ refConds y ↔ ∃ j, (y = .join j ∨ ∃ as, y = .source (.join j) as) ∧
        e ∈ joinConds j := by
      intro y
      cases y with
      | source src as => cases src <;> simp [refConds]
      | _ => simp [refConds]
    rw [this l, this r]
    constructor
    · rintro (⟨j, h1, h2⟩ | ⟨j, h1, h2⟩)
      · exact ⟨l, j, .inl rfl, h1, h2⟩
      · exact ⟨r, j, .inr rfl, h1, h2⟩
    · rintro ⟨y, j, rfl | rfl, h1, h2⟩
      · exact .inl ⟨j, h1, h2⟩
      · exact .inr ⟨j, h1, h2⟩
  constructor
  · rintro (⟨x, hx, hb⟩ | ⟨e, he, hr⟩)
    · rcases fromItem_kids.mp hx with (rfl | rfl) | ⟨j, y, rfl | rfl, h1, h2⟩
      · exact .inl (.inl hb)
      · exact .inr (.inl (.inl hb))
      · exact .inl (.inr ⟨j, h1, .inl ⟨x, h2, hb⟩⟩)
      · exact .inr (.inl (.inr ⟨j, h1, .inl ⟨x, h2, hb⟩⟩))
    · simp only [joinConds, List.mem_append, Option.mem_toList] at he
      rcases he with he | he
      · obtain ⟨y, j, rfl | rfl, h1, h2⟩ := (hc e).mp he
        · exact .inl (.inr ⟨j, h1, .inr ⟨e, h2, hr⟩⟩)
        · exact .inr (.inl (.inr ⟨j, h1, .inr ⟨e, h2, hr⟩⟩))
      · exact .inr (.inr ⟨e, he, hr⟩)
  · have key : ∀ y : Ref, y = l ∨ y = r → BadRef y → BadFrom (.mk l r on us) := by
      rintro y hy (hb | ⟨j, hj, ⟨x, hx, hb⟩ | ⟨e, he, hr⟩⟩)
      · exact .inl ⟨y, fromItem_kids.mpr (.inl hy), hb⟩
      · exact .inl ⟨x, fromItem_kids.mpr (.inr ⟨j, y, hy, hj, hx⟩), hb⟩
      · refine .inr ⟨e, ?_, hr⟩
        simp only [joinConds, List.mem_append]
        exact .inl ((hc e).mpr ⟨y, j, hy, hj, he⟩)
    rintro (h | h | ⟨e, he, hr⟩)
    · exact key l (.inl rfl) h
    · exact key r (.inr rfl) h
    · refine .inr ⟨e, ?_, hr⟩
      simp only [joinConds, List.mem_append, Option.mem_toList]
      exact .inr he

theorem badRef_join (j : Join) : BadRef (.join j) ↔ BadFrom j := by
  constructor
  · rintro (h | ⟨j', h | ⟨as, h⟩, hb⟩)
    · cases h
    · cases h; exact hb
    · cases h
  · intro h
    exact .inr ⟨j, .inl rfl, h⟩

theorem badRef_source (j : Join) (as : Str) : BadRef (.source (.join j) as) ↔ BadFrom j := by
  constructor
  · rintro (h | ⟨j', h | ⟨as, h⟩, hb⟩)
    · cases h
    · cases h
    · cases h; exact hb
  · intro h
    exact .inr ⟨j, .inr ⟨as, rfl⟩, h⟩

theorem badRef_other {x : Ref} (h1 : ∀ j, x ≠ .join j) (h2 : ∀ j as, x ≠ .source (.join j) as) :
    BadRef x ↔ BadSource x := by
  constructor
  · rintro (h | ⟨j', h | ⟨as, h⟩, hb⟩)
    · exact h
    · exact absurd h (h1 _)
    · exact absurd h (h2 _ _)
  · exact .inl

/-- The fields and tables collected from FROM, and when an error is left pending. -/
def FromOk (norm : Str → Str) (bad : Prop) (tables : List Table) (conds : List Expr) (le : Option Err)
    (r : Tabs) : Prop :=
  (r.2.2 = none ↔ le = none ∧ ¬bad) ∧
  (¬bad → r.1 = tables) ∧
  (¬bad → List.Forall₂ (FieldOf norm) (conds.map (plainPlace .condition)) r.2.1)

mutual

theorem collectR_ok : ∀ (x : Ref) (le : Option Err),
    FromOk norm (BadRef x) (refTables norm x) (refConds x) le (collectR norm x le)
  | .nil, le => by
    have : ¬BadSource .nil := nofun
    rw [badRef_other (by intro _ h; cases h) (by intro _ _ h; cases h)]
    simp [FromOk, collectR, this, refTables, refConds]
  | .source (.table schema name) as, le => by
    rw [badRef_other (by intro _ h; cases h) (by intro _ _ h; cases h)]
    by_cases hs : schema = []
    · have : ¬BadSource (.source (.table schema name) as) := by
        rintro (⟨_, _, _, h⟩ | _ | _ | _)
        exact h hs
      subst hs
      simp [FromOk, collectR, this, refTables, refConds]
    · have : BadSource (.source (.table schema name) as) := .table _ _ _ hs
      simp [FromOk, collectR, this, hs]
  | .source (.select s) as, le => by
    have : ¬BadSource (.source (.select s) as) := nofun
    rw [badRef_other (by intro _ h; cases h) (by intro _ _ h; cases h)]
    simp [FromOk, collectR, this, refTables, refConds]
  | .source (.setOpr q) as, le => by
    have : BadSource (.source (.setOpr q) as) := .setOpr _ _
    rw [badRef_other (by intro _ h; cases h) (by intro _ _ h; cases h)]
    simp [FromOk, collectR, this]
  | .source (.join j) as, le => by
    rw [badRef_source]
    simp only [collectR, refTables, refConds]
    exact collectJ_ok j le
  | .source .other as, le => by
    have : BadSource (.source .other as) := .other _
    rw [badRef_other (by intro _ h; cases h) (by intro _ _ h; cases h)]
    simp [FromOk, collectR, this]
  | .join j, le => by
    rw [badRef_join]
    simp only [collectR, refTables, refConds]
    exact collectJ_ok j le
  | .other, le => by
    have : BadSource .other := .ref
    rw [badRef_other (by intro _ h; cases h) (by intro _ _ h; cases h)]
    simp [FromOk, collectR, this]

theorem collectJ_ok : ∀ (j : Join) (le : Option Err),
    FromOk norm (BadFrom j) (joinTables norm j) (joinConds j) le (collectJ norm j le)
  | .mk l r on us, le => by
    obtain ⟨a1, a2, a3⟩ := collectR_ok l le
    obtain ⟨b1, b2, b3⟩ := collectR_ok r (collectR norm l le).2.2
    rw [badFrom_kids]
    cases on with
    | none =>
      simp only [collectJ, joinTables, joinConds, Option.toList_none, List.append_nil]
      refine ⟨?_, ?_, ?_⟩
      · simp only
        rw [b1, a1]
        simp
        tauto
      · intro h
        simp only [not_or] at h
        simp only [a2 h.1, b2 h.2.1]
      · intro h
        simp only [not_or] at h
        rw [List.map_append]
        exact List.rel_append (a3 h.1) (b3 h.2.1)
    | some e =>
      simp only [collectJ, joinTables, joinConds, Option.toList_some]
      refine ⟨?_, ?_, ?_⟩
      · simp only
        rw [collectE_err, b1, a1]
        simp
        tauto
      · intro h
        simp only [not_or] at h
        simp only [a2 h.1, b2 h.2.1]
      · intro h
        simp only [not_or] at h
        rw [List.map_append, List.map_append]
        exact List.rel_append (List.rel_append (a3 h.1) (b3 h.2.1))
          (.cons (fieldOf_expr _ _ _ _) .nil)

end

mutual

/-- the tables do not depend on the pending error -/
theorem collectR_indep : ∀ (x : Ref) (le : Option Err), (collectR norm x le).1 = (collectR norm x none).1
  | .nil, _ => rfl
  | .source (.table schema name) as, le => by simp only [collectR]; split <;> rfl
  | .source (.select _) _, _ => rfl
  | .source (.setOpr _) _, _ => rfl
  | .source (.join j) _, le => by simp only [collectR]; exact collectJ_indep j le
  | .source .other _, _ => rfl
  | .join j, le => by simp only [collectR]; exact collectJ_indep j le
  | .other, _ => rfl

/-- see `collectR_indep` -/
theorem collectJ_indep : ∀ (j : Join) (le : Option Err), (collectJ norm j le).1 = (collectJ norm j none).1
  | .mk l r on us, le => by
    have h1 := collectR_indep l le
    have h2 := collectR_indep r (collectR norm l le).2.2
    have h3 := collectR_indep r (collectR norm l none).2.2
    cases on <;> simp only [collectJ, h1, h2, h3]

end

/-! ## The clauses -/

/-- What a clause does: `ps` are its places, `bad` says that it has an error of its own, `checks` that it
looks for pending errors. -/
structure Part (norm : Str → Str) (F : St → Found) (ps : List (Str × FieldType × Item)) (bad checks : Prop) :
    Prop where
  mono : ∀ st, (F st).2.errors = [] → st.errors = []
  scopes : ∀ st, (F st).2.scopes = st.scopes
  refuses : bad → ∀ st, (F st).2.errors ≠ []
  leak : checks → ∀ st, st.lastError ≠ none → (F st).2.errors ≠ []
  keeps : ¬checks → ∀ st, (F st).2.lastError = st.lastError
  good : ¬bad → ∀ st, st.lastError = none → (F st).2 = st ∧ List.Forall₂ (FieldOf norm) ps (F st).1

theorem Part.then {F G : St → Found} {ps qs : List (Str × FieldType × Item)} {b c k l : Prop}
    (hF : Part norm F ps b k) (hG : Part norm G qs c l) :
    Part norm (fun st => thenFound (F st) G) (ps ++ qs) (b ∨ c) (k ∨ l) where
  mono st h := hF.mono st (hG.mono _ h)
  scopes st := (hG.scopes _).trans (hF.scopes st)
  refuses h st he := by
    rcases h with h | h
    · exact hF.refuses h st (hG.mono _ he)
    · exact hG.refuses h _ he
  leak h st hl he := by
    by_cases hk : k
    · exact hF.leak hk st hl (hG.mono _ he)
    · exact hG.leak (h.resolve_left hk) _ (by rw [hF.keeps hk]; exact hl) he
  keeps h st := by
    simp only [not_or] at h
    exact (hG.keeps h.2 _).trans (hF.keeps h.1 st)
  good h st hl := by
    simp only [not_or] at h
    obtain ⟨h1, h2⟩ := hF.good h.1 st hl
    obtain ⟨h3, h4⟩ := hG.good h.2 st hl
    simp only [thenFound, h1]
    exact ⟨h3, List.rel_append h2 h4⟩

theorem Part.congr {F : St → Found} {ps qs : List (Str × FieldType × Item)} {b c k l : Prop}
    (h : Part norm F ps b k) (hp : ps = qs) (hb : b ↔ c) (hk : k ↔ l) : Part norm F qs c l := by
  subst hp
  rw [propext hb, propext hk] at h
  exact h

theorem part_nil : Part norm (fun st => ([], st)) [] False False where
  mono _ h := h
  scopes _ := rfl
  refuses h := h.elim
  leak h := h.elim
  keeps _ _ := rfl
  good _ _ _ := ⟨rfl, .nil⟩

theorem part_expr (ty : FieldType) (as : Str) (e : Expr) :
    Part norm (foundE norm ty as e) [(as, ty, .expr e)] (Refuses e) True := by
  have key : ∀ st : St, (st.lastError = none ∧ ¬Refuses e ∧
      foundE norm ty as e st = ([⟨as, (collectE norm ty e st.lastError).1⟩], st)) ∨
      ((st.lastError ≠ none ∨ Refuses e) ∧ ∃ x, foundE norm ty as e st =
        ([], { st with lastError := none, errors := st.errors ++ [x] })) := by
    intro st
    cases h : (collectE norm ty e st.lastError).2 with
    | none =>
      have h' := (collectE_err ty e st.lastError).mp h
      refine .inl ⟨h'.1, h'.2, ?_⟩
      simp only [foundE, h]
      rw [← h'.1]
    | some x =>
      refine .inr ⟨?_, x, by simp only [foundE, h]⟩
      by_contra hn
      simp only [not_or, not_not] at hn
      rw [(collectE_err ty e st.lastError).mpr hn] at h
      cases h
  refine ⟨?_, ?_, ?_, ?_, ?_, ?_⟩
  · intro st h
    rcases key st with ⟨-, -, e⟩ | ⟨-, x, e⟩ <;> rw [e] at h
    · exact h
    · simp at h
  · intro st
    rcases key st with ⟨-, -, e⟩ | ⟨-, x, e⟩ <;> rw [e]
  · intro hb st
    rcases key st with ⟨-, h, -⟩ | ⟨-, x, e⟩
    · exact absurd hb h
    · rw [e]; simp
  · intro _ st hl
    rcases key st with ⟨h, -⟩ | ⟨-, x, e⟩
    · exact absurd h hl
    · rw [e]; simp
  · intro h; exact absurd trivial h
  · intro hb st hl
    rcases key st with ⟨-, -, e⟩ | ⟨h, -⟩
    · rw [e]; exact ⟨rfl, .cons (fieldOf_expr _ _ _ _) .nil⟩
    · rcases h with h | h
      · exact absurd hl h
      · exact absurd h hb

theorem part_from (o : Option Join) : Part norm (foundFrom norm o)
    ((o.toList.flatMap joinConds).map (plainPlace .condition)) (∃ j ∈ o, BadFrom j) (o ≠ none) := by
  cases o with
  | none =>
    exact part_nil.congr rfl (by simp) (by simp)
  | some j =>
    have key : ∀ st : St, (st.lastError = none ∧ ¬BadFrom j ∧
        (foundFrom norm (some j) st).2 = st) ∨
        ((st.lastError ≠ none ∨ BadFrom j) ∧ ∃ x, (foundFrom norm (some j) st).2 =
          { st with lastError := none, errors := st.errors ++ [x] }) := by
      intro st
      have h0 := (collectJ_ok (norm := norm) j st.lastError).1
      cases h : (collectJ norm j st.lastError).2.2 with
      | none =>
        have h' := h0.mp h
        refine .inl ⟨h'.1, h'.2, ?_⟩
        simp only [foundFrom, h]
        rw [← h'.1]
      | some x =>
        refine .inr ⟨?_, x, by simp only [foundFrom, h]⟩
        by_contra hn
        simp only [not_or, not_not] at hn
        rw [h0.mpr hn] at h
        cases h
    have hb : (∃ j' ∈ some j, BadFrom j') ↔ BadFrom j := by simp
    refine Part.congr (b := BadFrom j) (k := True) ⟨?_, ?_, ?_, ?_, ?_, ?_⟩ rfl hb.symm (by simp)
    · intro st h
      rcases key st with ⟨-, -, e⟩ | ⟨-, x, e⟩ <;> rw [e] at h
      · exact h
      · simp at h
    · intro st
      rcases key st with ⟨-, -, e⟩ | ⟨-, x, e⟩ <;> rw [e]
    · intro hb st
      rcases key st with ⟨-, h, -⟩ | ⟨-, x, e⟩
      · exact absurd hb h
      · rw [e]; simp
    · intro _ st hl
      rcases key st with ⟨h, -⟩ | ⟨-, x, e⟩
      · exact absurd h hl
      · rw [e]; simp
    · intro h; exact absurd trivial h
    · intro hb st hl
      rcases key st with ⟨-, -, e⟩ | ⟨h, -⟩
      · refine ⟨e, ?_⟩
        simpa [foundFrom] using (collectJ_ok (norm := norm) j st.lastError).2.2 hb
      · rcases h with h | h
        · exact absurd hl h
        · exact absurd h hb

theorem part_es (es : List Expr) : Part norm (foundEs norm es) (es.map (plainPlace .reference))
    (∃ e ∈ es, Refuses e) (es ≠ []) := by
  induction es with
  | nil => exact part_nil.congr rfl (by simp) (by simp)
  | cons e es ih =>
    exact ((part_expr .reference [] e).then ih).congr rfl (by simp) (by simp)

theorem part_o (ty : FieldType) (o : Option Expr) : Part norm (foundO norm ty o)
    (o.toList.map (plainPlace ty)) (∃ e ∈ o, Refuses e) (o ≠ none) := by
  cases o with
  | none => exact part_nil.congr rfl (by simp) (by simp)
  | some e => exact (part_expr ty [] e).congr rfl (by simp) (by simp)

theorem part_limit (l : Limit) : Part norm (foundLimit norm l)
    ((limitExprs l).map (plainPlace .reference)) (∃ e ∈ limitExprs l, Refuses e) (limitExprs l ≠ []) := by
  cases l with
  | none => exact part_nil.congr rfl (by simp [limitExprs]) (by simp [limitExprs])
  | mk c o =>
    exact ((part_expr .reference [] c).then (part_expr .reference [] o)).congr rfl
      (by simp [limitExprs]) (by simp [limitExprs])

theorem part_star (t : Str) : Part norm
    (fun st => ([⟨[], [{ table := norm t, name := [], type := .star }]⟩], st))
    [([], .reference, .star (norm t))] False False where
  mono _ h := h
  scopes _ := rfl
  refuses h := h.elim
  leak h := h.elim
  keeps _ _ := rfl
  good _ st _ := ⟨rfl, .cons ⟨rfl, by simp [ColumnOf], nofun⟩ .nil⟩

theorem part_fs (fs : List SelField) : Part norm (foundFs norm fs) (fs.map (fieldPlace norm))
    (∃ e as, .expr e as ∈ fs ∧ Refuses e) (∃ e as, .expr e as ∈ fs) := by
  induction fs with
  | nil => exact part_nil.congr rfl (by simp) (by simp)
  | cons f fs ih =>
    cases f with
    | expr e as =>
      refine ((part_expr .reference (norm as) e).then ih).congr rfl ?_ ?_
      · constructor
        · rintro (h | ⟨e', as', h1, h2⟩)
          · exact ⟨e, as, by simp, h⟩
          · exact ⟨e', as', by simp [h1], h2⟩
        · rintro ⟨e', as', h1, h2⟩
          rcases List.mem_cons.mp h1 with h1 | h1
          · cases h1; exact .inl h2
          · exact .inr ⟨e', as', h1, h2⟩
      · constructor
        · intro _; exact ⟨e, as, by simp⟩
        · intro _; exact .inl trivial
    | star t =>
      exact ((part_star t).then ih).congr rfl (by simp) (by simp)

theorem part_window (w : Option (List Expr)) : Part norm (foundWindow w) [] (w ≠ none) False where
  mono st h := by
    cases w with
    | none => exact h
    | some _ => simp [foundWindow] at h
  scopes st := by cases w <;> rfl
  refuses h st := by
    cases w with
    | none => exact absurd rfl h
    | some _ => simp [foundWindow]
  leak h := h.elim
  keeps _ st := by cases w <;> rfl
  good h st _ := by
    cases w with
    | none => exact ⟨rfl, .nil⟩
    | some _ => exact absurd nofun h

/-- The select looks for pending errors: it has an expression or a FROM clause. -/
def Checks (norm : Str → Str) (s : Select) : Prop :=
  (∃ as ty e, (as, ty, .expr e) ∈ places norm s) ∨ fromOf s ≠ none

theorem mem_plain {as : Str} {ty ty' : FieldType} {e : Expr} {es : List Expr} :
    (as, ty, Item.expr e) ∈ es.map (plainPlace ty') ↔ as = [] ∧ ty = ty' ∧ e ∈ es := by
  simp only [List.mem_map, plainPlace, Prod.mk.injEq, Item.expr.injEq]
  constructor
  · rintro ⟨x, hx, rfl, rfl, rfl⟩; exact ⟨rfl, rfl, hx⟩
  · rintro ⟨rfl, rfl, h⟩; exact ⟨e, h, rfl, rfl, rfl⟩

theorem mem_fieldPlace {as : Str} {ty : FieldType} {e : Expr} {fs : List SelField} :
    (as, ty, Item.expr e) ∈ fs.map (fieldPlace norm) ↔ ty = .reference ∧ ∃ a, as = norm a ∧ .expr e a ∈ fs := by
  simp only [List.mem_map]
  constructor
  · rintro ⟨x, hx, h⟩
    cases x with
    | expr e' a =>
      simp only [fieldPlace, Prod.mk.injEq, Item.expr.injEq] at h
      obtain ⟨rfl, rfl, rfl⟩ := h
      exact ⟨rfl, a, rfl, hx⟩
    | star t => simp [fieldPlace] at h
  · rintro ⟨rfl, a, rfl, h⟩
    exact ⟨_, h, rfl⟩

theorem part_all (s : Select) :
    Part norm (foundAll norm s) (places norm s) (Faulty norm s) (Checks norm s) := by
  cases s with
  | mk v w fields from_ where_ groupBy having lists windows orderBy limit =>
    have h := (part_fs (norm := norm) fields).then <| (part_from from_).then <|
      (part_o .condition where_).then <| (part_es groupBy).then <|
      (part_o .reference having).then <| (part_window windows).then <|
      (part_es orderBy).then (part_limit limit)
    refine h.congr ?_ ?_ ?_
    · simp [places]
    · constructor
      · have mk : ∀ as ty e, (as, ty, Item.expr e) ∈ places norm (.mk v w fields from_ where_ groupBy
            having lists windows orderBy limit) → Refuses e → Faulty norm (.mk v w fields from_ where_ groupBy
            having lists windows orderBy limit) := fun as ty e h hr => .expr _ as ty e h hr
        simp only [places, List.mem_append, mem_plain, mem_fieldPlace, Option.mem_toList] at mk
        rintro (⟨e, as, h1, h2⟩ | ⟨j, hj, hb⟩ | ⟨e, h1, h2⟩ | ⟨e, h1, h2⟩ | ⟨e, h1, h2⟩ | hw | ⟨e, h1, h2⟩ |
          ⟨e, h1, h2⟩)
        · exact mk _ _ e (.inl (.inl (.inl (.inl (.inl (.inl ⟨rfl, as, rfl, h1⟩)))))) h2
        · rcases hb with ⟨x, h1, h2⟩ | ⟨e, h1, h2⟩
          · exact .source _ j x hj h1 h2
          · exact mk [] .condition e (.inl (.inl (.inl (.inl (.inl (.inr ⟨rfl, rfl,
              List.mem_flatMap.mpr ⟨j, by simpa using hj, h1⟩⟩)))))) h2
        · exact mk [] .condition e (.inl (.inl (.inl (.inl (.inr ⟨rfl, rfl, h1⟩))))) h2
        · exact mk [] .reference e (.inl (.inl (.inl (.inr ⟨rfl, rfl, h1⟩)))) h2
        · exact mk [] .reference e (.inl (.inl (.inr ⟨rfl, rfl, h1⟩))) h2
        · cases windows with
          | none => exact absurd rfl hw
          | some ws => exact .window ..
        · exact mk [] .reference e (.inl (.inr ⟨rfl, rfl, h1⟩)) h2
        · exact mk [] .reference e (.inr ⟨rfl, rfl, h1⟩) h2
      · intro h
        cases h with
        | expr _ as ty e hm hr =>
          simp only [places, List.mem_append, mem_plain, mem_fieldPlace, Option.mem_toList] at hm
          rcases hm with (((((⟨-, a, -, h⟩ | ⟨-, -, h⟩) | ⟨-, -, h⟩) | ⟨-, -, h⟩) | ⟨-, -, h⟩) | ⟨-, -, h⟩) |
            ⟨-, -, h⟩
          · exact .inl ⟨e, a, h, hr⟩
          · obtain ⟨j, hj, he⟩ := List.mem_flatMap.mp h
            exact .inr (.inl ⟨j, by simpa using hj, .inr ⟨e, he, hr⟩⟩)
          · exact .inr (.inr (.inl ⟨e, h, hr⟩))
          · exact .inr (.inr (.inr (.inl ⟨e, h, hr⟩)))
          · exact .inr (.inr (.inr (.inr (.inl ⟨e, h, hr⟩))))
          · exact .inr (.inr (.inr (.inr (.inr (.inr (.inl ⟨e, h, hr⟩))))))
          · exact .inr (.inr (.inr (.inr (.inr (.inr (.inr ⟨e, h, hr⟩))))))
        | source _ j x hj h1 h2 => exact .inr (.inl ⟨j, hj, .inl ⟨x, h1, h2⟩⟩)
        | window => exact .inr (.inr (.inr (.inr (.inr (.inl nofun)))))
    · have hne : ∀ (l : List Expr), l ≠ [] → ∃ e, e ∈ l := fun l h => List.exists_mem_of_ne_nil l h
      have hso : ∀ (o : Option Expr), o ≠ none → ∃ e, e ∈ o := fun o h => by
        cases o with
        | none => exact absurd rfl h
        | some e => exact ⟨e, rfl⟩
      simp only [Checks, places, List.mem_append, mem_plain, mem_fieldPlace, Option.mem_toList, fromOf]
      constructor
      · rintro (⟨e, as, h1⟩ | h | h | h | h | h | h | h)
        · exact .inl ⟨_, _, e, .inl (.inl (.inl (.inl (.inl (.inl ⟨rfl, as, rfl, h1⟩)))))⟩
        · exact .inr h
        · obtain ⟨e, h⟩ := hso _ h
          exact .inl ⟨[], .condition, e, .inl (.inl (.inl (.inl (.inr ⟨rfl, rfl, h⟩))))⟩
        · obtain ⟨e, h⟩ := hne _ h
          exact .inl ⟨[], .reference, e, .inl (.inl (.inl (.inr ⟨rfl, rfl, h⟩)))⟩
        · obtain ⟨e, h⟩ := hso _ h
          exact .inl ⟨[], .reference, e, .inl (.inl (.inr ⟨rfl, rfl, h⟩))⟩
        · exact h.elim
        · obtain ⟨e, h⟩ := hne _ h
          exact .inl ⟨[], .reference, e, .inl (.inr ⟨rfl, rfl, h⟩)⟩
        · obtain ⟨e, h⟩ := hne _ h
          exact .inl ⟨[], .reference, e, .inr ⟨rfl, rfl, h⟩⟩
      · rintro (⟨as, ty, e, hm⟩ | h)
        · rcases hm with (((((⟨-, a, -, h⟩ | ⟨-, -, h⟩) | ⟨-, -, h⟩) | ⟨-, -, h⟩) | ⟨-, -, h⟩) | ⟨-, -, h⟩) |
            ⟨-, -, h⟩
          · exact .inl ⟨e, a, h⟩
          · obtain ⟨j, hj, he⟩ := List.mem_flatMap.mp h
            refine .inr (.inl ?_)
            rintro rfl
            simp at hj
          · exact .inr (.inr (.inl (by rintro rfl; simp at h)))
          · exact .inr (.inr (.inr (.inl (by rintro rfl; simp at h))))
          · exact .inr (.inr (.inr (.inr (.inl (by rintro rfl; simp at h)))))
          · exact .inr (.inr (.inr (.inr (.inr (.inr (.inl (by rintro rfl; simp at h)))))))
          · refine .inr (.inr (.inr (.inr (.inr (.inr (.inr ?_))))))
            intro e0; rw [e0] at h; simp at h
        · exact .inr (.inl h)

/-! ## Entering selects -/

/-- `Kind == SelectStmtKindValues` -/
def isValues : Select → Bool
  | .mk v _ _ _ _ _ _ _ _ _ _ => v

theorem late_errors (v : Bool) (w : Option (List Cte)) (st : St) :
    (lateErrors v w st).errors = st.errors ∧ (lateErrors v w st).scopes = st.scopes := by
  cases v <;> cases w <;> simp [lateErrors]

theorem late_none (st : St) : lateErrors false none st = st := by simp [lateErrors]

theorem late_with (v : Bool) (w : List Cte) (st : St) :
    (lateErrors v (some w) st).lastError ≠ none := by cases v <;> simp [lateErrors]

theorem enter_errors (s : Select) (st : St) :
    (enter norm s st).errors = (foundAll norm s st).2.errors := by
  cases s
  simp only [enter, late_errors]

theorem enter_scopes (s : Select) (st : St) (h : st.scopes ≠ []) :
    (enter norm s st).scopes = st.scopes := by
  have := (part_all (norm := norm) s).scopes st
  cases s
  simp only [enter, late_errors, this, h, if_false]

theorem enter_late (s : Select) (st : St) :
    (enter norm s st).lastError = (lateErrors (isValues s) s.with_ (foundAll norm s st).2).lastError := by
  cases s
  rfl

theorem rootName_eq : rootName = "<root>".toList := by unfold rootName; rfl

theorem enter_first (s : Select) (h : ¬Faulty norm s) :
    ∃ sc, (enter norm s {}).scopes = [sc] ∧ Describes norm s sc := by
  obtain ⟨h1, h2⟩ := (part_all (norm := norm) s).good h {} rfl
  have hs := (part_all (norm := norm) s).scopes {}
  cases s with
  | mk v w fields from_ where_ groupBy having lists windows orderBy limit =>
    refine ⟨_, by simp only [enter, late_errors, hs, if_true]; rfl, _, h2, ?_⟩
    have ht : fromTables norm from_ = from_.toList.flatMap (joinTables norm) := by
      cases from_ with
      | none => rfl
      | some j =>
        simp only [fromTables, Option.toList_some, List.flatMap_cons, List.flatMap_nil, List.append_nil]
        refine (collectJ_ok j none).2.1 fun hb => h ?_
        rcases hb with ⟨x, hx, hbs⟩ | ⟨e, he, hr⟩
        · exact .source _ j x rfl hx hbs
        · refine .expr _ [] .condition e ?_ hr
          simp only [places, List.mem_append, mem_plain]
          exact .inl (.inl (.inl (.inl (.inl (.inr ⟨trivial, trivial, by simpa using he⟩)))))
    rw [rootName_eq, ht]
    rfl

/-! ## The walk -/

theorem step_mono (evs : List Ev) (st : St) (h : (evs.foldl (scopeStep norm) st).errors = []) :
    st.errors = [] := by
  induction evs generalizing st with
  | nil => exact h
  | cons e evs ih =>
    have := ih _ h
    cases e with
    | enter s =>
      simp only [scopeStep, enter_errors] at this
      exact (part_all s).mono _ this
    | _ => exact this

theorem step_scopes (evs : List Ev) (st : St) (h : st.scopes ≠ []) :
    (evs.foldl (scopeStep norm) st).scopes = st.scopes := by
  induction evs generalizing st with
  | nil => rfl
  | cons e evs ih =>
    cases e with
    | enter s =>
      have := enter_scopes (norm := norm) s st h
      simp only [List.foldl_cons, scopeStep]
      rw [ih _ (by rw [this]; exact h), this]
    | leave s => exact ih _ h
    | source src as => exact ih _ h

theorem below_walk {x z : Nd} (h : Below x z) : ∃ pre post, walk x = pre ++ walk z ++ post := by
  induction h with
  | refl => exact ⟨[], [], by simp⟩
  | @step x y z hy _ ih =>
    obtain ⟨pre, post, ih⟩ := ih
    obtain ⟨l, r, hlr⟩ := List.append_of_mem hy
    refine ⟨opening x ++ l.flatMap walk ++ pre, post ++ r.flatMap walk ++ closing x, ?_⟩
    rw [walk_eq x, hlr]
    simp only [List.flatMap_append, List.flatMap_cons, ih, List.append_assoc]

theorem walkS_enter (s : Select) : ∃ rest, walkS s = .enter s :: (walkW s.with_ ++ rest) := by
  cases s
  exact ⟨_, by simp only [walkS, List.append_assoc, List.cons_append, List.nil_append]; rfl⟩

/-- every select in an accepted query is without fault -/
theorem run_faults (evs : List Ev) (x : Select) (h : Ev.enter x ∈ evs) (hf : Faulty norm x) (st : St) :
    (evs.foldl (scopeStep norm) st).errors ≠ [] := by
  intro he
  obtain ⟨l, r, rfl⟩ := List.append_of_mem h
  simp only [List.foldl_append, List.foldl_cons, scopeStep] at he
  have := step_mono r _ he
  rw [enter_errors] at this
  exact (part_all x).refuses hf _ this

theorem enter_mem {s x : Select} (h : Below (.s s) (.s x)) : Ev.enter x ∈ walkS s := by
  obtain ⟨pre, post, e⟩ := below_walk h
  simp only [walk] at e
  obtain ⟨rest, hr⟩ := walkS_enter x
  rw [e, hr]
  simp

theorem walk_enters (x : Nd) (y : Select) (h : Ev.enter y ∈ walk x) : Below x (.s y) := by
  rw [walk_eq] at h
  simp only [List.mem_append, List.mem_flatMap] at h
  rcases h with (h | ⟨z, hz, h⟩) | h
  · cases x with
    | s s => simp only [opening, List.mem_singleton, Ev.enter.injEq] at h; subst h; exact .refl _
    | r x => cases x <;> simp [opening] at h
    | _ => simp [opening] at h
  · exact .step hz (walk_enters z y h)
  · cases x <;> simp [closing] at h
termination_by sizeOf x
decreasing_by exact kids_sizeOf _ _ hz

/-! ## C71 -/

/-- C71: an accepted query gives exactly one scope, that of its outermost SELECT, which describes that
SELECT's own expressions and FROM items; and no SELECT anywhere in it has a refused expression in a
clause, a refused FROM item or a WINDOW clause. -/
theorem C71_scope_describes (norm : Str → Str) (s : Select) (scopes : List Scope)
    (h : collectStmtScopes norm (.select s) = .ok scopes) :
    (∃ sc, scopes = [sc] ∧ Describes norm s sc) ∧ ∀ x, Below (.s s) (.s x) → ¬Faulty norm x := by
  simp only [collectStmtScopes] at h
  split at h
  · cases h
  · next he =>
    simp only [not_not] at he
    simp only [Except.ok.injEq] at h
    have hall : ∀ x, Below (.s s) (.s x) → ¬Faulty norm x :=
      fun x hx hf => run_faults _ x (enter_mem hx) hf _ he
    refine ⟨?_, hall⟩
    obtain ⟨sc, h1, h2⟩ := enter_first s (hall s (.refl _))
    refine ⟨sc, ?_, h2⟩
    rw [← h, ← h1]
    obtain ⟨rest, hr⟩ := walkS_enter s
    rw [hr]
    simp only [List.foldl_cons, scopeStep]
    exact step_scopes _ _ (by rw [h1]; simp)

/-- C71: a query is accepted when no SELECT in it, at any depth, is faulty, has WITH or is VALUES. -/
theorem C71_accepts (norm : Str → Str) (s : Select)
    (hf : ∀ x, Below (.s s) (.s x) → ¬Faulty norm x ∧ x.with_ = none ∧ isValues x = false) :
    ∃ sc, collectStmtScopes norm (.select s) = .ok [sc] ∧ Describes norm s sc := by
  have key : ∀ (evs : List Ev) (st : St), (∀ x, Ev.enter x ∈ evs → Below (.s s) (.s x)) →
      st.errors = [] → st.lastError = none →
      (evs.foldl (scopeStep norm) st).errors = [] := by
    intro evs
    induction evs with
    | nil => intro st _ h _; exact h
    | cons e evs ih =>
      intro st hev h1 h2
      have hev' : ∀ x, Ev.enter x ∈ evs → Below (.s s) (.s x) := fun x hx => hev x (by simp [hx])
      cases e with
      | enter x =>
        obtain ⟨g1, g2, g3⟩ := hf x (hev x (by simp))
        have hg := ((part_all (norm := norm) x).good g1 st h2).1
        refine ih _ hev' ?_ ?_
        · simp only [scopeStep, enter_errors, hg, h1]
        · simp only [scopeStep, enter_late, g2, g3, late_none, hg, h2]
      | leave x => exact ih _ hev' h1 h2
      | source a b => exact ih _ hev' h1 h2
  have he := key (walkS s) {} (fun x hx => walk_enters (.s s) x hx) rfl rfl
  have hok : collectStmtScopes norm (.select s) =
      .ok ((walkS s).foldl (scopeStep norm) {}).scopes := by
    simp [collectStmtScopes, he]
  obtain ⟨sc, e, hd⟩ := (C71_scope_describes norm s _ hok).1
  exact ⟨sc, by rw [hok, e], hd⟩

/-- C71: a WITH clause anywhere in the query is refused, provided its first query is a SELECT with an
expression or a FROM clause. -/
theorem C71_with_refused (norm : Str → Str) (s x q : Select) (name : Str) (cs : List Cte)
    (hx : Below (.s s) (.s x)) (hw : x.with_ = some (.mk name (.select q) :: cs)) (hc : Checks norm q) :
    ∃ es, es ≠ [] ∧ collectStmtScopes norm (.select s) = .error es := by
  have hne : ((walkS s).foldl (scopeStep norm) {}).errors ≠ [] := by
    intro he
    obtain ⟨pre, post, e⟩ := below_walk hx
    simp only [walk] at e
    obtain ⟨r1, h1⟩ := walkS_enter x
    obtain ⟨r2, h2⟩ := walkS_enter q
    rw [hw] at h1
    simp only [walkW, walkCtes, walkCte, walkQ, h2] at h1
    rw [e, h1] at he
    simp only [List.cons_append, List.append_assoc, List.foldl_append, List.foldl_cons, scopeStep] at he
    have := step_mono _ _ (step_mono _ _ (step_mono _ _ (step_mono _ _ (step_mono _ _ he))))
    rw [enter_errors] at this
    refine (part_all q).leak hc _ ?_ this
    rw [enter_late, hw]
    exact late_with _ _ _
  exact ⟨_, hne, by simp [collectStmtScopes, hne]⟩

/-- C71: a faulty SELECT anywhere in the query is reported. -/
theorem C71_refuses (norm : Str → Str) (s x : Select) (hx : Below (.s s) (.s x)) (hf : Faulty norm x) :
    ∃ es, es ≠ [] ∧ collectStmtScopes norm (.select s) = .error es := by
  have hne := run_faults (norm := norm) _ x (enter_mem hx) hf {}
  exact ⟨_, hne, by simp [collectStmtScopes, hne]⟩

end Verif.MyScope
