import Verif.PgScope.ScopeEx
/-!
# C63: which queries are refused

The converse of `C63_accepts`: an unsupported expression, a name with another schema or catalog, a natural
join or a WINDOW clause anywhere in a plain query is refused, however deep it is nested.
-/
namespace Verif.PgScope.Spec
open Verif.Builder Verif.Fields Verif.PgScope

/-- `y` is `x` or an operand in it, on the same query level. -/
inductive Inside : Expr → Expr → Prop where
  | here (x : Expr) : Inside x x
  | operand (x y z : Expr) : y ∈ operands x → Inside y z → Inside x z

/-- A query and all queries nested in it, in expressions and in FROM. -/
inductive Within (norm : Str → Str) : Select → Select → Prop where
  | here (s : Select) : Within norm s s
  | asked (s x y : Select) (p : Str × FieldType × Expr) : p ∈ places norm s → Asks p.2.2 x →
      Within norm x y → Within norm s y
  | derived (s x y : Select) (t : TableExpr) : t ∈ fromItems s → x ∈ fromSubs t →
      Within norm x y → Within norm s y

/-- catalog and schema written before the tables of a FROM item -/
def written : TableExpr → List (Str × Str)
  | .aliased (.tableName catalog schema _) _ _ => [(catalog, schema)]
  | .aliased (.join l r _) _ _ => written l ++ written r
  | .join l r _ => written l ++ written r
  | _ => []

/-- the join conditions of a FROM item -/
def joinConds : TableExpr → List Cond
  | .aliased (.join l r c) _ _ => joinConds l ++ joinConds r ++ [c]
  | .join l r c => joinConds l ++ joinConds r ++ [c]
  | _ => []

/-- What a select itself must not contain. -/
inductive Forbidden (norm : Str → Str) (schema : Str) : Select → Prop where
  /-- an expression that is not supported -/
  | leaf (s : Select) (p : Str × FieldType × Expr) (known : Bool) : p ∈ places norm s →
      Inside p.2.2 (.leaf known false) → Forbidden norm schema s
  /-- `other.table.column`, `other.table.*` -/
  | name (s : Select) (p : Str × FieldType × Expr) (parts : List Str) (star : Bool) : p ∈ places norm s →
      Inside p.2.2 (.name parts star) → OtherSchema schema parts 2 → Forbidden norm schema s
  /-- `(other.table).*` -/
  | tupleStar (s : Select) (p : Str × FieldType × Expr) (parts : List Str) (star : Bool) :
      p ∈ places norm s → Inside p.2.2 (.tupleStar (.name parts star)) → OtherSchema schema parts 1 →
      Forbidden norm schema s
  /-- `(other.table).column` -/
  | columnAccess (s : Select) (p : Str × FieldType × Expr) (parts : List Str) (star : Bool) (c : Str) :
      p ∈ places norm s → Inside p.2.2 (.columnAccess (.name parts star) c) →
      OtherSchema schema parts 1 → Forbidden norm schema s
  /-- a table with a catalog or with another schema -/
  | table (s : Select) (t : TableExpr) (catalog sName : Str) : t ∈ fromItems s →
      (catalog, sName) ∈ written t → (catalog ≠ [] ∨ (norm sName ≠ [] ∧ norm sName ≠ schema)) →
      Forbidden norm schema s
  /-- NATURAL JOIN -/
  | natural (s : Select) (t : TableExpr) : t ∈ fromItems s → .natural ∈ joinConds t →
      Forbidden norm schema s
  /-- a WINDOW clause -/
  | window (id : Nat) (orderBy : List Expr) (limit : Limit) (exprs : List SelExpr)
      (tables : List TableExpr) (where_ : Option Expr) (groupBy : List Expr) (having : Option Expr)
      (distinctOn : List Expr) :
      Forbidden norm schema (.mk id none orderBy limit
        (.clause exprs tables where_ groupBy having true distinctOn))

end Verif.PgScope.Spec

namespace Verif.PgScope
open Verif.Builder Verif.Fields Verif.Lib Verif.PgScope.Spec

variable {norm : Str → Str} {schema : Str}

theorem schemaSpecified_of {parts : List Str} {n : Nat} (h : OtherSchema schema parts n) :
    schemaSpecified schema parts n = true := by
  simp only [schemaSpecified, Bool.or_eq_true, Bool.and_eq_true, decide_eq_true_eq]
  rcases h with h | ⟨x, h1, h2⟩
  · exact .inr h
  · obtain ⟨h3, h4⟩ := List.getElem?_eq_some_iff.mp h1
    by_cases h5 : parts.length = n + 1
    · exact .inl ⟨h5, by simpa [part, List.getD, h1] using h2⟩
    · right; omega

theorem cerr_some {items : List CItem} {er : Err} (h : .err er ∈ items) : cerr items ≠ none := by
  unfold cerr
  intro h0
  rw [List.getLast?_eq_none_iff] at h0
  have : er ∈ items.filterMap CItem.errOf := List.mem_filterMap.mpr ⟨_, h, rfl⟩
  rw [h0] at this
  cases this

theorem inside_items (ty : FieldType) (it : CItem) {x y : Expr} (h : Inside x y)
    (hm : it ∈ baseItems norm schema ty y) : it ∈ citemsE norm schema ty x := by
  induction h with
  | here x => exact (citems_mem it x).mpr (.inl hm)
  | operand x y z hy _ ih => exact (citems_mem it x).mpr (.inr (.inl ⟨y, hy, ih hm⟩))

theorem terr_some {items : List TItem} {i : TItem} (h : i ∈ items) (he : i.errOf ≠ none) :
    terr items ≠ none := by
  induction items with
  | nil => cases h
  | cons j r ih =>
    rw [terr]
    rcases List.mem_cons.mp h with rfl | h
    · cases h1 : terr r with
      | none => simpa using he
      | some e => simp
    · have := ih h
      cases h1 : terr r with
      | none => exact absurd h1 this
      | some e => simp

theorem written_items (n : Nat) : ∀ t : TableExpr, sizeOf t ≤ n → ∀ c s, (c, s) ∈ written t →
    (c ≠ [] ∨ (norm s ≠ [] ∧ norm s ≠ schema)) → .err .explicitSchema ∈ titems norm schema t := by
  induction n with
  | zero => intro t h; cases t <;> simp at h
  | succ n ih =>
    intro t hn c s h hb
    have hj : ∀ l r cd, sizeOf (TableExpr.join l r cd) ≤ n + 1 → (c, s) ∈ written l ++ written r →
        .err .explicitSchema ∈ titems norm schema l ++ (titems norm schema r ++ citemsCond norm schema cd) := by
      intro l r cd hs hm
      simp at hs
      rcases List.mem_append.mp hm with hm | hm
      · exact List.mem_append_left _ (ih l (by omega) c s hm hb)
      · exact List.mem_append_right _ (List.mem_append_left _ (ih r (by omega) c s hm hb))
    cases t with
    | aliased t as l =>
      cases t with
      | tableName c' s' t' =>
        simp only [written, List.mem_singleton, Prod.mk.injEq] at h
        obtain ⟨rfl, rfl⟩ := h
        have : tableSchemaSpecified norm schema c s = true := by
          unfold tableSchemaSpecified
          by_cases hc : c = []
          · rcases hb with hb | ⟨h1, h2⟩
            · exact absurd hc hb
            · simp [hc, h1, h2]
          · simp [hc]
        rw [titems, if_pos this]
        simp
      | join l' r' cd =>
        rw [titems]
        exact hj l' r' cd (by simp at hn ⊢; omega) (by simpa [written] using h)
      | _ => simp [written] at h
    | join l' r' cd =>
      rw [titems]
      exact hj l' r' cd hn (by simpa [written] using h)
    | _ => simp [written] at h

theorem natural_items (n : Nat) : ∀ t : TableExpr, sizeOf t ≤ n → .natural ∈ joinConds t →
    .err .naturalJoin ∈ titems norm schema t := by
  induction n with
  | zero => intro t h; cases t <;> simp at h
  | succ n ih =>
    intro t hn h
    have hj : ∀ l r cd, sizeOf (TableExpr.join l r cd) ≤ n + 1 →
        Cond.natural ∈ joinConds l ++ joinConds r ++ [cd] →
        .err .naturalJoin ∈ titems norm schema l ++ (titems norm schema r ++ citemsCond norm schema cd) := by
      intro l r cd hs hm
      simp at hs
      simp only [List.mem_append, List.mem_singleton] at hm
      rcases hm with (hm | hm) | rfl
      · exact List.mem_append_left _ (ih l (by omega) hm)
      · exact List.mem_append_right _ (List.mem_append_left _ (ih r (by omega) hm))
      · simp [citemsCond]
    cases t with
    | aliased t as l =>
      cases t with
      | join l' r' cd =>
        rw [titems]
        exact hj l' r' cd (by simp at hn ⊢; omega) (by simpa [joinConds] using h)
      | _ => simp [joinConds] at h
    | join l' r' cd =>
      rw [titems]
      exact hj l' r' cd hn (by simpa [joinConds] using h)
    | _ => simp [joinConds] at h

theorem forbidden_parts {s : Select} (hp : Plain s) (h : Forbidden norm schema s) :
    ¬∀ i ∈ partsS norm schema s, i.errs = [] := by
  intro he
  obtain ⟨-, f2, f3⟩ := select_fields (fun _ => []) hp he
  have hE : ∀ p ∈ places norm s, ∀ y er, Inside p.2.2 y → .err er ∉ baseItems norm schema p.2.1 y :=
    fun p h1 y er h2 h3 => cerr_some (inside_items p.2.1 _ h2 h3) (f2 p h1)
  cases h with
  | leaf _ p known h1 h2 => exact hE p h1 _ .unsupportedExpr h2 (by simp [baseItems])
  | name _ p parts star h1 h2 h3 =>
    exact hE p h1 _ .explicitSchema h2 (by simp [baseItems, schemaSpecified_of h3])
  | tupleStar _ p parts star h1 h2 h3 =>
    exact hE p h1 _ .schemaInTuple h2 (by simp [baseItems, schemaSpecified_of h3])
  | columnAccess _ p parts star c h1 h2 h3 =>
    exact hE p h1 _ .schemaInTuple h2 (by simp [baseItems, schemaSpecified_of h3])
  | table _ t c n h1 h2 h3 =>
    exact terr_some (written_items _ t (Nat.le_refl _) c n h2 h3) (by simp [TItem.errOf]) (f3 t h1)
  | natural _ t h1 h2 =>
    exact terr_some (natural_items _ t (Nat.le_refl _) h2) (by simp [TItem.errOf]) (f3 t h1)
  | window id orderBy limit exprs tables where_ groupBy having distinctOn =>
    have := he .window (by simp [partsS])
    simp [Part.errs] at this

theorem forbidden_errs {fuel : Nat} {s x : Select} (hr : AllReady norm schema fuel s) (hp : Plain s)
    (hnr : ¬RemoteSub (.s s)) (hu : Ev.unknown ∉ (witemsS s).flatMap WItem.evs)
    (hw : Within norm s x) (hb : Forbidden norm schema x) : errsS norm schema s ≠ [] := by
  induction hw with
  | here s =>
    intro he
    rw [errsS_eq, List.append_eq_nil_iff] at he
    exact forbidden_parts hp hb (List.flatMap_eq_nil_iff.mp he.1)
  | asked s x y p h1 h2 _ ih =>
    cases hr with
    | mk _ hr hs =>
      have hrs : ∀ x ∈ wsubs s, Ready norm schema fuel x.2.2 := by
        intro x hx
        cases hs x hx
        assumption
      obtain ⟨hu1, hu2⟩ := wsubs_evs hrs hu
      intro he
      rw [errsS_eq, List.append_eq_nil_iff] at he
      rcases plain_asked hp x p h1 h2 with ⟨i, h⟩ | h | h
      · exact ih (hs _ h) (plain_wsubs hp _ h) (fun h' => hnr (h'.up (wsubs_below s _ h))) (hu2 _ h) hb
          (List.flatMap_eq_nil_iff.mp he.2 _ h)
      · exact hu1 h
      · exact hnr h
  | derived s x y t h1 h2 _ ih =>
    cases hr with
    | mk _ hr hs =>
      have hrs : ∀ x ∈ wsubs s, Ready norm schema fuel x.2.2 := by
        intro x hx
        cases hs x hx
        assumption
      obtain ⟨hu1, hu2⟩ := wsubs_evs hrs hu
      intro he
      rw [errsS_eq, List.append_eq_nil_iff] at he
      obtain ⟨i, h⟩ := plain_from hp x t h1 h2
      exact ih (hs _ h) (plain_wsubs hp _ h) (fun h' => hnr (h'.up (wsubs_below s _ h))) (hu2 _ h) hb
        (List.flatMap_eq_nil_iff.mp he.2 _ h)

/-- C63: a plain query is refused when it or a query nested in it, at any depth, contains an unsupported
expression, a column or table with another schema or catalog, a natural join or a WINDOW clause. -/
theorem C63_refuses (s x : Select) (hp : Plain s) (hf : Fresh s) (hr : NoRemoteSubquery s) (fuel : Nat)
    (hn : sizeOf s ≤ fuel) (hw : Within norm s x) (hb : Forbidden norm schema x) :
    ∃ errs, errs ≠ [] ∧ collectStmtScopes norm schema fuel (.select s) = .ok (.error errs) := by
  obtain ⟨h1, h2⟩ := bregs_nodup (norm := norm) (schema := schema) hf
  have ha := allReady_of (norm := norm) (schema := schema) hp hf hn (below_refl _)
  obtain ⟨ν, n1, n2, n3, hc⟩ := collect_eq ha h1 h2
  rw [hc]
  by_cases hu : unkOf (walkS s) = []
  · have hready : Ready norm schema fuel s := by cases ha; assumption
    have he := forbidden_errs ha hp ((noRemote_iff s).mp hr) (by
      rw [hready.walk] at hu
      have := unkOf_mem _ hu
      intro hm
      exact this (by simp [hm])) hw hb
    exact ⟨_, he, by simp [hu, he]⟩
  · exact ⟨_, hu, by simp [hu]⟩

/-- `(SELECT id FROM <catalog>.<schema>.tags)` -/
def exTags (catalog schema : Str) : Select :=
  .mk 2 none [] .none (.clause [.mk (.name ["id".toList] false) []]
    [.aliased (.tableName catalog schema "tags".toList) [] false] none [] none false [])

/-- `SELECT id FROM users WHERE EXISTS (SELECT id FROM <catalog>.<schema>.tags)` -/
def exForeign (catalog schema : Str) : Select :=
  .mk 0 none [] .none (.clause [.mk (.name ["id".toList] false) []]
    [.aliased (.tableName [] [] "users".toList) [] false]
    (some (.node true [.subquery 1 (.paren (exTags catalog schema))])) [] none false [])

theorem exForeign_within (c n : Str) : Within lower (exForeign c n) (exTags c n) :=
  .asked _ (exTags c n) _ ([], .condition, .node true [.subquery 1 (.paren (exTags c n))])
    (List.mem_cons_of_mem _ List.mem_cons_self)
    (.operand _ _ _ List.mem_cons_self (.subquery 1 _)) (.here _)

theorem exTags_forbidden (n : Str) : Forbidden lower public_ (exTags ['d'] n) :=
  .table _ (.aliased (.tableName ['d'] n "tags".toList) [] false) ['d'] n List.mem_cons_self
    List.mem_cons_self (.inl (by simp))

/-- the hypotheses of `C63_refuses` hold for a catalog before a table of a nested query -/
example : ∃ errs, errs ≠ [] ∧ collectStmtScopes lower public_ (sizeOf (exForeign ['d'] "public".toList))
    (.select (exForeign ['d'] "public".toList)) = .ok (.error errs) :=
  C63_refuses _ _ (plain_of _ 20 (by decide +kernel))
    (fresh_of _ 20 (by decide +kernel) (by decide +kernel) (by decide +kernel))
    (noRemote_of _ 20 (by decide +kernel)) _ (Nat.le_refl _)
    (exForeign_within _ _) (exTags_forbidden _)

/-- without catalog the same query is accepted -/
example : ∃ sc, collectStmtScopes lower public_ (sizeOf (exForeign [] []))
    (.select (exForeign [] [])) = .ok (.ok [sc]) :=
  C63_accepts _ (plain_of _ 20 (by decide +kernel))
    (fresh_of _ 20 (by decide +kernel) (by decide +kernel) (by decide +kernel)) _ (Nat.le_refl _)
    (clean_of lower public_ rfl _ 20 (by decide +kernel))

end Verif.PgScope
