import Verif.PgScope.Describe
/-!
# C63, C64: the scopes collected for a PostgreSQL query describe it
-/
namespace Verif.PgScope
open Verif.Builder Verif.Fields Verif.Lib Verif.PgScope.Spec

variable {norm : Str → Str} {schema : Str}

/-! ## Names -/

theorem scopesNames_flat (l : List Scope) : scopesNames l = l.flatMap scopeNames := by
  induction l with
  | nil => simp [scopesNames]
  | cons s r ih => simp [scopesNames, ih]

theorem den_names (ν : Nat → Str) {fuel : Nat} {s : Select} (hr : AllReady norm schema fuel s) :
    (scopeNames (den norm schema ν s)).Perm ((vids s).map ν) := by
  induction hr with
  | mk s hr hs ih =>
    rw [den_eq, scopeNames, vids_eq, List.map_cons]
    refine List.Perm.cons _ ?_
    have key : ∀ l : List (Bool × Nat × Select), (∀ x ∈ l, x ∈ wsubs s) →
        (scopesNames (fieldDens norm schema ν l) ++ scopesNames (subDens norm schema ν l)).Perm
          ((l.flatMap fun x => vids x.2.2).map ν) := by
      intro l hl
      induction l with
      | nil => simp [fieldDens, subDens, scopesNames]
      | cons x r ihl =>
        have h1 := ih x (hl x (by simp))
        have h2 := ihl fun x hx => hl x (by simp [hx])
        obtain ⟨d, i, x⟩ := x
        cases d
        · have e1 : fieldDens norm schema ν ((false, i, x) :: r) =
              den norm schema ν x :: fieldDens norm schema ν r := rfl
          have e2 : subDens norm schema ν ((false, i, x) :: r) = subDens norm schema ν r := rfl
          rw [e1, e2, scopesNames, List.flatMap_cons, List.map_append, List.append_assoc]
          exact h1.append h2
        · have e1 : subDens norm schema ν ((true, i, x) :: r) =
              den norm schema ν x :: subDens norm schema ν r := rfl
          have e2 : fieldDens norm schema ν ((true, i, x) :: r) = fieldDens norm schema ν r := rfl
          rw [e1, e2, scopesNames, List.flatMap_cons, List.map_append]
          refine List.Perm.trans ?_ (h1.append h2)
          rw [← List.append_assoc, ← List.append_assoc]
          exact List.Perm.append_right _ List.perm_append_comm
    exact key _ fun _ h => h

theorem vids_regs {fuel : Nat} {s : Select} (hr : AllReady norm schema fuel s) (id : Nat)
    (h : id ∈ vids s) : id = s.id ∨ id ∈ bregs norm schema s := by
  induction hr with
  | mk s hr hs ih =>
    rw [vids_eq, List.mem_cons, List.mem_flatMap] at h
    rcases h with h | ⟨x, hx, h⟩
    · exact .inl h
    · right
      rw [bregs_eq, List.mem_append]
      rcases ih x hx h with rfl | h
      · left
        rw [mem_pregs]
        obtain ⟨d, i, x⟩ := x
        cases d
        · exact .inl (hr.regF i x hx)
        · exact .inr (hr.regS i x hx)
      · exact .inr (List.mem_flatMap.mpr ⟨x, hx, h⟩)

theorem nodup_map_on {α β : Type} (f : α → β) (l : List α) (hl : l.Nodup)
    (h : ∀ x ∈ l, ∀ y ∈ l, f x = f y → x = y) : (l.map f).Nodup := by
  induction l with
  | nil => simp
  | cons x r ih =>
    rw [List.nodup_cons] at hl
    rw [List.map_cons, List.nodup_cons]
    refine ⟨?_, ih hl.2 fun a ha b hb => h a (by simp [ha]) b (by simp [hb])⟩
    intro hm
    obtain ⟨y, hy, e⟩ := List.mem_map.mp hm
    exact hl.1 (h y (by simp [hy]) x (by simp) e ▸ hy)

/-! ## Errors -/

/-- a node that is refused by the walker or by the collector -/
def Bad (norm : Str → Str) (schema : Str) (z : Nd) : Prop := Refused z ∨ Unsupported norm schema z

theorem otherSchema_of {parts : List Str} {n : Nat} (h : schemaSpecified schema parts n = true) :
    OtherSchema schema parts n := by
  simp only [schemaSpecified, Bool.or_eq_true, Bool.and_eq_true, decide_eq_true_eq] at h
  rcases h with ⟨h1, h2⟩ | h
  · right
    have : n < parts.length := by omega
    refine ⟨parts[n], List.getElem?_eq_getElem this, ?_⟩
    simpa [part, List.getD, List.getElem?_eq_getElem this] using h2
  · left; omega

theorem citems_bad (ty : FieldType) (er : Err) (e : Expr) (h : .err er ∈ citemsE norm schema ty e) :
    ∃ z, Below (.e e) z ∧ Bad norm schema z := by
  induction e using operand_induction with
  | h x ih =>
    rw [citems_mem] at h
    rcases h with h | ⟨y, hy, h⟩ | ⟨h, _⟩
    · refine ⟨.e x, below_refl _, ?_⟩
      cases x with
      | leaf known ok =>
        cases ok
        · exact .inr (.leaf known)
        · simp [baseItems] at h
      | name parts star =>
        by_cases hs : schemaSpecified schema parts 2 = true
        · exact .inr (.name parts star (otherSchema_of hs))
        · simp [baseItems, hs] at h
          split at h <;> simp at h
      | tupleStar e =>
        cases e with
        | name parts star =>
          by_cases hs : schemaSpecified schema parts 1 = true
          · exact .inr (.tupleStar parts star (otherSchema_of hs))
          · simp [baseItems, hs] at h
        | _ => simp [baseItems] at h
      | columnAccess e c =>
        cases e with
        | name parts star =>
          by_cases hs : schemaSpecified schema parts 1 = true
          · exact .inr (.columnAccess parts star c (otherSchema_of hs))
          · simp [baseItems, hs] at h
        | _ => simp [baseItems] at h
      | allColumns t => exact .inl (.allColumns t)
      | columnItem t c => exact .inl (.columnItem t c)
      | _ => simp [baseItems] at h
    · obtain ⟨z, h1, h2⟩ := ih y hy h
      exact ⟨z, below_trans (operands_below x y hy) h1, h2⟩
    · cases h

theorem cerr_bad (ty : FieldType) (e : Expr) (h : cerr (citemsE norm schema ty e) ≠ none) :
    ∃ z, Below (.e e) z ∧ Bad norm schema z := by
  obtain ⟨er, he⟩ := Option.ne_none_iff_exists'.mp h
  have hm := List.mem_of_getLast? he
  obtain ⟨i, hi, e1⟩ := List.mem_filterMap.mp hm
  cases i <;> simp [CItem.errOf] at e1
  exact citems_bad ty _ e hi

theorem terr_of {items : List TItem} (h : terr items ≠ none) : ∃ i ∈ items, i.errOf ≠ none := by
  induction items with
  | nil => exact absurd rfl h
  | cons i r ih =>
    rw [terr] at h
    by_cases hr : terr r = none
    · refine ⟨i, by simp, ?_⟩
      simpa [hr] using h
    · obtain ⟨j, hj, h'⟩ := ih hr
      exact ⟨j, by simp [hj], h'⟩

theorem rows_bad (items : List Expr) (i : TItem) (hi : i ∈ rowItems norm schema items)
    (h : i.errOf ≠ none) : ∃ e ∈ items, ∃ z, Below (.e e) z ∧ Bad norm schema z := by
  obtain ⟨e, he, rfl⟩ := List.mem_map.mp hi
  exact ⟨e, he, cerr_bad .reference e h⟩

theorem cond_bad (l r : TableExpr) (c : Cond) (i : TItem) (hi : i ∈ citemsCond norm schema c)
    (h : i.errOf ≠ none) : ∃ z, Below (.t (.join l r c)) z ∧ Bad norm schema z := by
  cases c with
  | none => simp [citemsCond] at hi
  | natural => exact ⟨_, below_refl _, .inl (.natural l r)⟩
  | «using» cols => exact ⟨_, below_refl _, .inl (.using l r cols)⟩
  | on e =>
    simp [citemsCond] at hi
    subst hi
    obtain ⟨z, h1, h2⟩ := cerr_bad .condition e h
    exact ⟨z, below_trans (below_step (by simp [kids, near]) (below_refl _)) h1, h2⟩

theorem Shape.bad {t : TableExpr} (hs : Shape t) (i : TItem) (hi : i ∈ titems norm schema t)
    (h : i.errOf ≠ none) : ∃ z, Below (.t t) z ∧ Bad norm schema z := by
  have kid : ∀ {x y : Nd}, y ∈ kids x → (∃ z, Below y z ∧ Bad norm schema z) →
      ∃ z, Below x z ∧ Bad norm schema z := by
    rintro x y hy ⟨z, h1, h2⟩
    exact ⟨z, below_step hy h1, h2⟩
  induction hs with
  | tableName c s t as l =>
    rw [titems] at hi
    split at hi
    · rename_i hsch
      refine ⟨_, below_refl _, .inr (.table c s t as l ?_)⟩
      by_cases hc : c = []
      · right
        simp only [tableSchemaSpecified, hc, ne_eq, not_true_eq_false, if_false] at hsch
        split at hsch
        · cases hsch
        · rename_i hn
          exact not_or.mp hn
      · exact .inl hc
    · simp at hi; subst hi; exact absurd rfl h
  | objectName ps as l => exact kid (by simp [kids, near]) ⟨_, below_refl _, .inl (.objectName ps)⟩
  | statementSource as l => exact kid (by simp [kids, near]) ⟨_, below_refl _, .inl .statementSource⟩
  | tableRef as l => exact kid (by simp [kids, near]) ⟨_, below_refl _, .inl .tableRef⟩
  | derived i s as l => simp [titems] at hi; subst hi; exact absurd rfl h
  | aliasedRows items as l _ =>
    obtain ⟨e, he, hz⟩ := rows_bad items i hi h
    exact kid (y := .t (.rowsFrom items)) (by simp [kids, near])
      (kid (y := .e e) (by simp [kids, near, he]) hz)
  | rows items _ =>
    obtain ⟨e, he, hz⟩ := rows_bad items i hi h
    exact kid (y := .e e) (by simp [kids, near, he]) hz
  | aliasedJoin l r c as lat _ _ _ ih1 ih2 =>
    refine kid (y := .t (.join l r c)) (by simp [kids, near]) ?_
    simp only [titems, List.mem_append] at hi
    rcases hi with hi | hi | hi
    · exact kid (y := .t l) (by simp [kids_join]) (ih1 hi)
    · exact kid (y := .t r) (by simp [kids_join]) (ih2 hi)
    · exact cond_bad l r c i hi h
  | join l r c _ _ _ ih1 ih2 =>
    simp only [titems, List.mem_append] at hi
    rcases hi with hi | hi | hi
    · exact kid (y := .t l) (by simp [kids_join]) (ih1 hi)
    · exact kid (y := .t r) (by simp [kids_join]) (ih2 hi)
    · exact cond_bad l r c i hi h
  | bareObject ps => exact ⟨_, below_refl _, .inl (.objectName ps)⟩
  | bareSource => exact ⟨_, below_refl _, .inl .statementSource⟩
  | bareRef => exact ⟨_, below_refl _, .inl .tableRef⟩

theorem parts_bad {s : Select} (hp : Plain s) (i : Part) (hi : i ∈ partsS norm schema s)
    (h : i.errs ≠ []) : ∃ z, Below (.s s) z ∧ Bad norm schema z := by
  have hsh := plain_shape hp
  have hn := hp _ (below_refl _)
  cases hn with
  | s id orderBy limit exprs tables where_ groupBy having window distinctOn h1 h2 =>
    have viaB : ∀ y, y ∈ kids (.b (.clause exprs tables where_ groupBy having window distinctOn)) →
        (∃ z, Below y z ∧ Bad norm schema z) →
        ∃ z, Below (.s (.mk id none orderBy limit
          (.clause exprs tables where_ groupBy having window distinctOn))) z ∧ Bad norm schema z := by
      rintro y hy ⟨z, h3, h4⟩
      exact ⟨z, below_step (y := .b _) (by simp [kids, near]) (below_step hy h3), h4⟩
    have viaS : ∀ y, y ∈ kids (.s (.mk id none orderBy limit
          (.clause exprs tables where_ groupBy having window distinctOn))) →
        (∃ z, Below y z ∧ Bad norm schema z) →
        ∃ z, Below (.s (.mk id none orderBy limit
          (.clause exprs tables where_ groupBy having window distinctOn))) z ∧ Bad norm schema z := by
      rintro y hy ⟨z, h3, h4⟩
      exact ⟨z, below_step hy h3, h4⟩
    have hE : ∀ as ty e, i = .expr as (citemsE norm schema ty e) → ∃ z, Below (.e e) z ∧ Bad norm schema z := by
      rintro as ty e rfl
      refine cerr_bad ty e ?_
      intro h0
      exact h (by simp [Part.errs, h0])
    simp only [partsS, List.mem_append] at hi
    rcases hi with hi | hi | hi | hi | hi | hi | hi | hi
    · obtain ⟨⟨e, as⟩, he, e1⟩ := List.mem_map.mp hi
      refine viaB (.e e) ?_ (hE as .reference e e1.symm)
      simp only [kids, near, remote, List.mem_append, List.mem_map]
      exact .inl (.inl (.inl (.inl (.inl (.inl ⟨_, he, rfl⟩)))))
    · obtain ⟨t, ht, rfl⟩ := List.mem_map.mp hi
      refine viaB (.t t) (by simp [kids, near, ht]) ?_
      have h0 : terr (titems norm schema t) ≠ none := by
        intro h0
        exact h (by simp [Part.errs, h0])
      obtain ⟨j, hj, h3⟩ := terr_of h0
      exact (hsh t ht).bad j hj h3
    · obtain ⟨e, he, e1⟩ := List.mem_map.mp hi
      exact viaB (.e e) (by simp [kids, near]; simp at he; simp [he]) (hE [] .condition e e1.symm)
    · obtain ⟨e, he, e1⟩ := List.mem_map.mp hi
      exact viaB (.e e) (by simp [kids, near, he]) (hE [] .reference e e1.symm)
    · obtain ⟨e, he, e1⟩ := List.mem_map.mp hi
      exact viaB (.e e) (by simp [kids, near]; simp at he; simp [he]) (hE [] .reference e e1.symm)
    · cases window with
      | false => simp at hi
      | true =>
        exact ⟨_, below_step (y := .b _) (by simp [kids, near]) (below_refl _),
          .inr (.window exprs tables where_ groupBy having distinctOn)⟩
    · obtain ⟨e, he, e1⟩ := List.mem_map.mp hi
      exact viaS (.e e) (by simp [kids, near, he]) (hE [] .reference e e1.symm)
    · cases limit with
      | none => simp [partsL] at hi
      | mk count offset =>
        simp only [partsL, List.mem_cons, List.not_mem_nil, or_false] at hi
        rcases hi with hi | hi
        · exact viaS (.e count) (by simp [kids, near]) (hE [] .reference _ hi)
        · exact viaS (.e offset) (by simp [kids, remote]) (hE [] .reference _ hi)

theorem errs_bad {fuel : Nat} {s : Select} (hr : AllReady norm schema fuel s) (hp : Plain s)
    (h : errsS norm schema s ≠ []) : ∃ z, Below (.s s) z ∧ Bad norm schema z := by
  induction hr with
  | mk s hr hs ih =>
    rw [errsS_eq] at h
    by_cases h0 : (partsS norm schema s).flatMap Part.errs = []
    · rw [h0, List.nil_append] at h
      obtain ⟨er, her⟩ := List.exists_mem_of_ne_nil _ h
      obtain ⟨x, hx, her⟩ := List.mem_flatMap.mp her
      obtain ⟨z, h1, h2⟩ := ih x hx (plain_wsubs hp x hx) (List.ne_nil_of_mem her)
      exact ⟨z, below_trans (wsubs_below s x hx) h1, h2⟩
    · obtain ⟨er, her⟩ := List.exists_mem_of_ne_nil _ h0
      obtain ⟨i, hi, her⟩ := List.mem_flatMap.mp her
      exact parts_bad hp i hi (List.ne_nil_of_mem her)

theorem run_unknown (evs : List Ev) (st st' : TSt) (h : runTables norm evs st = .ok st') :
    st'.unknown = st.unknown ++ unkOf evs := by
  induction evs generalizing st with
  | nil =>
    have : st = st' := by simpa [runTables, pure, Except.pure] using h
    simp [← this, unkOf]
  | cons ev evs ih =>
    have e0 : runTables norm (ev :: evs) st =
        match tableStep norm st ev with
        | .error f => .error f
        | .ok st1 => runTables norm evs st1 := by
      simp only [runTables, List.foldlM_cons]
      rcases tableStep norm st ev with f | st1 <;> rfl
    rw [e0] at h
    have key : ∀ st1, tableStep norm st ev = .ok st1 → st1.unknown = st.unknown ++ unkOf [ev] := by
      intro st1 h1
      cases ev with
      | enterSelect s =>
        obtain ⟨i, w, o, l, b⟩ := s
        simp only [tableStep, Except.ok.injEq] at h1
        subst h1
        cases w <;> simp [pushCte, unkOf]
      | leaveSelect s =>
        obtain ⟨i, w, o, l, b⟩ := s
        simp only [tableStep] at h1
        cases w with
        | none => simp [popCte] at h1; subst h1; simp [unkOf]
        | some cs =>
          simp only [popCte] at h1
          split at h1
          · cases h1
          · simp only [Except.ok.injEq] at h1; subst h1; simp [unkOf]
      | enterAliased e as =>
        cases e with
        | tableName c sc t =>
          simp only [tableStep, Except.ok.injEq] at h1
          subst h1
          simp only [addTable]
          split
          · simp [unkOf]
          · split <;> simp [unkOf]
        | _ => simp only [tableStep, Except.ok.injEq] at h1; subst h1; simp [unkOf]
      | unknown => simp only [tableStep, Except.ok.injEq] at h1; subst h1; simp [unkOf]
      | _ => simp only [tableStep, Except.ok.injEq] at h1; subst h1; simp [unkOf]
    cases h1 : tableStep norm st ev with
    | error f => rw [h1] at h; cases h
    | ok st1 =>
      rw [h1] at h
      have e1 : unkOf (ev :: evs) = unkOf [ev] ++ unkOf evs := unkOf_append [ev] evs
      rw [ih st1 h, key st1 h1, e1, List.append_assoc]

theorem unk_iff (s : Select) :
    unkOf (walkS s) = [] ↔ ∀ ns z, WPath (.s s) ns z → ¬Refused z := by
  obtain ⟨T, E, U, h1, h2⟩ := run_node id (.s s) {}
  have h3 : runTables id (walkS s) {} = .ok (TSt.add {} T E U) := by
    rw [runTables_keep]; exact h1
  have hU : U = unkOf (walkS s) := by
    have := run_unknown _ _ _ h3
    simpa [TSt.add] using this
  rw [← hU, h2.unk]
  constructor
  · intro h ns z hz hr
    exact h (.s s) (by simp) ns z hz ((post_refused z).mpr hr)
  · intro h x hx ns z hz hr
    rw [List.mem_singleton] at hx
    subst hx
    exact h ns z hz ((post_refused z).mp hr)

theorem unk_refused (s : Select) (h : ∀ z, Below (.s s) z → ¬Refused z) : unkOf (walkS s) = [] :=
  (unk_iff s).mpr fun ns z hz => h z ⟨ns, wpath_path hz⟩

theorem noRemote_iff (s : Select) : NoRemoteSubquery s ↔ ¬RemoteSub (.s s) := by
  constructor
  · rintro h ⟨y, z, i, b, h1, h2, h3⟩
    exact h y z i b h1 h2 h3
  · intro h x y i b h1 h2 h3
    exact h ⟨x, y, i, b, h1, h2, h3⟩

/-! ## C50, C63 -/

/-- C50 (partial): for a query of the plain kind the collection of scopes returns, whatever the query
reads and however deep it is nested.  The number of nested calls is bounded by the size of the query.
(Missing: queries of other kinds, see the counterexamples below.) -/
theorem C50_returns_partial (s : Select) (hp : Plain s) (hf : Fresh s) (fuel : Nat)
    (hn : sizeOf s ≤ fuel) : ∃ r, collectStmtScopes norm schema fuel (.select s) = .ok r := by
  obtain ⟨h1, h2⟩ := bregs_nodup (norm := norm) (schema := schema) hf
  obtain ⟨ν, -, -, -, h⟩ := collect_eq (allReady_of (norm := norm) (schema := schema) hp hf hn
    (below_refl _)) h1 h2
  rw [h]
  split
  · exact ⟨_, rfl⟩
  · split <;> exact ⟨_, rfl⟩

/-- C63: when the collection succeeds on a plain query without a subquery in the places the walker
skips, there is exactly one scope; it is called `<root>`, it describes the query, and the names of all
scopes in it are different and begin with `<`.  (The names `ν` are those given to the subqueries, by
identity.) -/
theorem C63_scope_describes (s : Select) (hp : Plain s) (hf : Fresh s) (hr : NoRemoteSubquery s)
    (fuel : Nat) (hn : sizeOf s ≤ fuel) (scopes : List Scope)
    (h : collectStmtScopes norm schema fuel (.select s) = .ok (.ok scopes)) :
    ∃ ν sc, scopes = [sc] ∧ ν s.id = "<root>".toList ∧ Describes lastItem norm ν s sc ∧
      (scopeNames sc).Nodup ∧ ∀ n ∈ scopeNames sc, n.head? = some '<' := by
  obtain ⟨h1, h2⟩ := bregs_nodup (norm := norm) (schema := schema) hf
  have ha := allReady_of (norm := norm) (schema := schema) hp hf hn (below_refl _)
  obtain ⟨ν, n1, n2, n3, hc⟩ := collect_eq ha h1 h2
  rw [hc] at h
  by_cases hu : unkOf (walkS s) = []
  · by_cases he : errsS norm schema s = []
    · simp only [hu, he, ne_eq, not_true_eq_false, if_false, Except.ok.injEq] at h
      subst h
      refine ⟨ν, _, rfl, ?_, ?_, ?_, ?_⟩
      · rw [n1]; unfold rootName; rfl
      · refine describes_den ν ha hp ((noRemote_iff s).mp hr) ?_ he
        have hready : Ready norm schema fuel s := by cases ha; assumption
        rw [hready.walk] at hu
        have := unkOf_mem _ hu
        intro hm
        exact this (by simp [hm])
      · rw [(den_names ν ha).nodup_iff]
        refine nodup_map_on ν _ (vids_nodup hf) ?_
        intro a ha' b hb' e
        rcases vids_regs ha a ha' with rfl | ha'
        · rcases vids_regs ha b hb' with rfl | hb'
          · rfl
          · rw [n1] at e
            exact absurd e.symm (n2 b hb').1
        · rcases vids_regs ha b hb' with rfl | hb'
          · rw [n1] at e
            exact absurd e (n2 a ha').1
          · exact n3 a ha' b hb' e
      · intro n hn'
        rw [(den_names ν ha).mem_iff, List.mem_map] at hn'
        obtain ⟨a, ha', rfl⟩ := hn'
        rcases vids_regs ha a ha' with rfl | ha'
        · rw [n1]; unfold rootName; rfl
        · exact (n2 a ha').2
    · simp [hu, he] at h
  · simp [hu] at h

/-- C63: a plain query is accepted when nothing in it is refused or unsupported. -/
theorem C63_accepts (s : Select) (hp : Plain s) (hf : Fresh s) (fuel : Nat) (hn : sizeOf s ≤ fuel)
    (hr : ∀ z, Below (.s s) z → ¬Refused z ∧ ¬Unsupported norm schema z) :
    ∃ sc, collectStmtScopes norm schema fuel (.select s) = .ok (.ok [sc]) := by
  obtain ⟨h1, h2⟩ := bregs_nodup (norm := norm) (schema := schema) hf
  have ha := allReady_of (norm := norm) (schema := schema) hp hf hn (below_refl _)
  obtain ⟨ν, n1, n2, n3, hc⟩ := collect_eq ha h1 h2
  have hu := unk_refused s fun z hz => (hr z hz).1
  have he : errsS norm schema s = [] := by
    by_contra he
    obtain ⟨z, h3, h4 | h4⟩ := errs_bad ha hp he
    · exact (hr z h3).1 h4
    · exact (hr z h3).2 h4
  rw [hc]
  exact ⟨_, by simp [hu, he]; rfl⟩

/-! ## C64 -/

theorem asks_sel {e : Expr} {x : Select} (h : Asks e x) : Below (.e e) (.s x) := by
  obtain ⟨i, h⟩ := asks_below e x h
  exact below_trans h (below_step (y := .b (.paren x)) (by simp [kids, near])
    (below_step (by simp [kids, near]) (below_refl _)))

theorem condPlaces_asks (c : Cond) (l r : TableExpr) (p : Str × FieldType × Expr)
    (h : p ∈ condPlaces norm c) (x : Select) (ha : Asks p.2.2 x) : Below (.t (.join l r c)) (.s x) := by
  cases c with
  | on e =>
    simp [condPlaces] at h
    subst h
    exact below_step (y := .e e) (by simp [kids_join, condNds]) (asks_sel ha)
  | «using» cols =>
    simp only [condPlaces, List.mem_map] at h
    obtain ⟨c, _, rfl⟩ := h
    cases ha with
    | operand _ y _ hy _ => simp [operands] at hy
  | _ => simp [condPlaces] at h

theorem fromPlaces_asks (t : TableExpr) (p : Str × FieldType × Expr) (h : p ∈ fromPlaces norm t)
    (x : Select) (ha : Asks p.2.2 x) : Below (.t t) (.s x) := by
  fun_induction fromPlaces norm t with
  | case1 t as l ih => exact below_step (y := .t t) (by simp [kids, near]) (ih h)
  | case2 l r c ih1 ih2 =>
    simp only [List.mem_append] at h
    rcases h with (h | h) | h
    · exact below_step (y := .t l) (by simp [kids_join]) (ih1 h)
    · exact below_step (y := .t r) (by simp [kids_join]) (ih2 h)
    · exact condPlaces_asks c l r p h x ha
  | case3 items =>
    obtain ⟨e, he, rfl⟩ := List.mem_map.mp h
    exact below_step (y := .e e) (by simp [kids, near, he]) (asks_sel ha)
  | case4 => simp at h

theorem places_asks (s : Select) (p : Str × FieldType × Expr) (h : p ∈ places norm s)
    (x : Select) (ha : Asks p.2.2 x) : Below (.s s) (.s x) := by
  obtain ⟨id, w, orderBy, limit, body⟩ := s
  cases body with
  | clause exprs tables where_ groupBy having window distinctOn =>
    have hb : ∀ y, y ∈ near (.b (.clause exprs tables where_ groupBy having window distinctOn)) →
        Below y (.s x) → Below (.s (.mk id w orderBy limit
          (.clause exprs tables where_ groupBy having window distinctOn))) (.s x) := by
      intro y hy hz
      exact below_near (y := .b _) (by simp [near]) (below_near hy hz)
    simp only [places, List.mem_append] at h
    rcases h with (((((h | h) | h) | h) | h) | h) | h
    · obtain ⟨⟨e, as⟩, he, rfl⟩ := List.mem_map.mp h
      refine hb (.e e) ?_ (asks_sel ha)
      simp only [near, List.mem_append, List.mem_map]
      exact .inl (.inl (.inl (.inl (.inl ⟨_, he, rfl⟩))))
    · obtain ⟨t, ht, h⟩ := List.mem_flatMap.mp h
      exact hb (.t t) (by simp [near, ht]) (fromPlaces_asks t p h x ha)
    · obtain ⟨e, he, rfl⟩ := List.mem_map.mp h
      exact hb (.e e) (by simp only [near, List.mem_append]; simp [Option.mem_toList.mp he]) (asks_sel ha)
    · obtain ⟨e, he, rfl⟩ := List.mem_map.mp h
      exact hb (.e e) (by simp only [near, List.mem_append]; simp [he]) (asks_sel ha)
    · obtain ⟨e, he, rfl⟩ := List.mem_map.mp h
      exact hb (.e e) (by simp only [near, List.mem_append]; simp [Option.mem_toList.mp he]) (asks_sel ha)
    · obtain ⟨e, he, rfl⟩ := List.mem_map.mp h
      exact below_step (y := .e e) (by simp [kids, near, he]) (asks_sel ha)
    · cases limit with
      | none => simp at h
      | mk c o =>
        simp at h
        rcases h with rfl | rfl
        · exact below_step (y := .e c) (by simp [kids, near]) (asks_sel ha)
        · exact below_step (y := .e o) (by simp [kids, remote]) (asks_sel ha)
  | _ => simp [places] at h

theorem fromSubs_below (t : TableExpr) (x : Select) (h : x ∈ fromSubs t) : Below (.t t) (.s x) := by
  fun_induction fromSubs t with
  | case1 t as l ih => exact below_step (y := .t t) (by simp [kids, near]) (ih h)
  | case2 l r c ih1 ih2 =>
    rcases List.mem_append.mp h with h | h
    · exact below_step (y := .t l) (by simp [kids_join]) (ih1 h)
    · exact below_step (y := .t r) (by simp [kids_join]) (ih2 h)
  | case3 i s =>
    simp at h
    subst h
    exact below_step (y := .b (.paren x)) (by simp [kids, near])
      (below_step (by simp [kids, near]) (below_refl _))
  | case4 => simp at h

theorem fromItems_below (s x : Select) (t : TableExpr) (ht : t ∈ fromItems s) (h : x ∈ fromSubs t) :
    Below (.s s) (.s x) := by
  obtain ⟨id, w, orderBy, limit, body⟩ := s
  cases body with
  | clause exprs tables where_ groupBy having window distinctOn =>
    have ht' : t ∈ tables := ht
    exact below_near (y := .b (.clause exprs tables where_ groupBy having window distinctOn))
      (by simp [near]) (below_near (y := .t t) (by simp [near, ht']) (fromSubs_below t x h))
  | _ => simp [fromItems] at ht

theorem Shape.named {t : TableExpr} (hs : Shape t) (ν : Nat → Str) (x : Select) (h : x ∈ fromSubs t) :
    ∃ T ∈ fromTables norm ν t, T.name = ν x.id := by
  induction hs with
  | derived i s as l =>
    simp [fromSubs] at h
    subst h
    exact ⟨⟨norm as, ν x.id, l⟩, by simp [fromTables], rfl⟩
  | aliasedJoin l r c as lat _ _ _ ih1 ih2 =>
    simp only [fromSubs, List.mem_append] at h
    rcases h with h | h
    · obtain ⟨T, h1, h2⟩ := ih1 h
      exact ⟨T, by simp [fromTables, h1], h2⟩
    · obtain ⟨T, h1, h2⟩ := ih2 h
      exact ⟨T, by simp [fromTables, h1], h2⟩
  | join l r c _ _ _ ih1 ih2 =>
    simp only [fromSubs, List.mem_append] at h
    rcases h with h | h
    · obtain ⟨T, h1, h2⟩ := ih1 h
      exact ⟨T, by simp [fromTables, h1], h2⟩
    · obtain ⟨T, h1, h2⟩ := ih2 h
      exact ⟨T, by simp [fromTables, h1], h2⟩
  | _ => simp [fromSubs] at h

theorem describes_named {pick : List TableExpr → List TableExpr} {ν : Nat → Str} {s : Select}
    {sc : Scope} (h : Describes pick norm ν s sc) :
    sc.name = ν s.id := by
  cases h; rfl

theorem forall₂_left {α β : Type} {R : α → β → Prop} {xs : List α} {ys : List β}
    (h : List.Forall₂ R xs ys) (x : α) (hx : x ∈ xs) : ∃ y ∈ ys, R x y := by
  induction h with
  | nil => simp at hx
  | cons h1 _ ih =>
    rcases List.mem_cons.mp hx with rfl | hx
    · exact ⟨_, by simp, h1⟩
    · obtain ⟨y, h2, h3⟩ := ih hx
      exact ⟨y, by simp [h2], h3⟩

theorem forall₂_right {α β : Type} {R : α → β → Prop} {xs : List α} {ys : List β}
    (h : List.Forall₂ R xs ys) (y : β) (hy : y ∈ ys) : ∃ x ∈ xs, R x y := by
  induction h with
  | nil => simp at hy
  | cons h1 _ ih =>
    rcases List.mem_cons.mp hy with rfl | hy
    · exact ⟨_, by simp, h1⟩
    · obtain ⟨x, h2, h3⟩ := ih hy
      exact ⟨x, by simp [h2], h3⟩

theorem fromPlaces_type (t : TableExpr) (p : Str × FieldType × Expr) (h : p ∈ fromPlaces norm t) :
    p.2.1 = .reference ∨ p.2.1 = .condition := by
  fun_induction fromPlaces norm t with
  | case1 t as l ih => exact ih h
  | case2 l r c ih1 ih2 =>
    simp only [List.mem_append] at h
    rcases h with (h | h) | h
    · exact ih1 h
    · exact ih2 h
    · cases c <;> simp [condPlaces] at h
      · subst h; exact .inr rfl
      · obtain ⟨_, _, rfl⟩ := h; exact .inr rfl
  | case3 items =>
    obtain ⟨e, he, rfl⟩ := List.mem_map.mp h
    exact .inl rfl
  | case4 => simp at h

theorem places_type (s : Select) (p : Str × FieldType × Expr) (h : p ∈ places norm s) :
    p.2.1 = .reference ∨ p.2.1 = .condition := by
  obtain ⟨id, w, orderBy, limit, body⟩ := s
  cases body with
  | clause exprs tables where_ groupBy having window distinctOn =>
    simp only [places, List.mem_append] at h
    rcases h with (((((h | h) | h) | h) | h) | h) | h
    · obtain ⟨⟨e, as⟩, he, rfl⟩ := List.mem_map.mp h
      exact .inl rfl
    · obtain ⟨t, ht, h⟩ := List.mem_flatMap.mp h
      exact fromPlaces_type t p h
    · obtain ⟨e, he, rfl⟩ := List.mem_map.mp h
      exact .inr rfl
    · obtain ⟨e, he, rfl⟩ := List.mem_map.mp h
      exact .inl rfl
    · obtain ⟨e, he, rfl⟩ := List.mem_map.mp h
      exact .inl rfl
    · obtain ⟨e, he, rfl⟩ := List.mem_map.mp h
      exact .inl rfl
    · cases limit with
      | none => simp at h
      | mk c o =>
        simp at h
        rcases h with rfl | rfl <;> exact .inl rfl
  | _ => simp [places] at h

theorem describes_linked (ν : Nat → Str) (n : Nat) : ∀ (sc : Scope) (s : Select), sizeOf sc ≤ n →
    Describes allItems norm ν s sc → Plain s → Linked sc := by
  induction n with
  | zero => intro sc s h; cases sc; simp at h
  | succ n ih =>
    intro sc s hn hd hp
    cases hd with
    | mk s all xs ys fs ss h1 h2 h3 h4 h5 =>
      simp only [Scope.mk.sizeOf_spec] at hn
      refine .mk _ _ _ _ _ ?_ ?_ ?_ ?_ ?_
      · intro f hf c hc hty
        obtain ⟨p, hp', hpf⟩ := forall₂_right h1 f (List.mem_of_mem_filter hf)
        rcases (hpf.2.1 c).mp hc with ⟨t, m, hm, rfl⟩ | ⟨t, hm, rfl⟩ | ⟨x, hx, rfl⟩
        · exfalso
          rcases places_type s p hp' with h | h <;> rw [h] at hty <;> cases hty
        · cases hty
        · obtain ⟨y, hy, hd⟩ := forall₂_left h4 x ((h2 x).mpr ⟨p, hp', hx⟩)
          exact ⟨y, hy, describes_named hd⟩
      · intro y hy
        obtain ⟨x, hx, hd⟩ := forall₂_right h4 y hy
        obtain ⟨p, hp', ha⟩ := (h2 x).mp hx
        obtain ⟨f, hf, hpf⟩ := forall₂_left h1 p hp'
        have hc := (hpf.2.1 _).mpr (.inr (.inr ⟨x, ha, rfl⟩))
        refine ⟨f, List.mem_filter.mpr ⟨hf, ?_⟩, _, hc, rfl, (describes_named hd).symm⟩
        simpa using List.ne_nil_of_mem hc
      · intro y hy
        obtain ⟨x, hx, hd⟩ := forall₂_right h5 y hy
        obtain ⟨t, ht, hxt⟩ := (h3 x).mp hx
        obtain ⟨T, hT, hn⟩ := (plain_shape hp t ht).named (norm := norm) ν x hxt
        exact ⟨T, List.mem_flatMap.mpr ⟨t, ht, hT⟩, hn.trans (describes_named hd).symm⟩
      · intro y hy
        obtain ⟨x, hx, hd⟩ := forall₂_right h4 y hy
        obtain ⟨p, hp', ha⟩ := (h2 x).mp hx
        have hb := places_asks s p hp' x ha
        have := List.sizeOf_lt_of_mem hy
        exact ih y x (by omega) hd (plain_below hp hb)
      · intro y hy
        obtain ⟨x, hx, hd⟩ := forall₂_right h5 y hy
        obtain ⟨t, ht, hxt⟩ := (h3 x).mp hx
        have hb := fromItems_below s x t ht hxt
        have := List.sizeOf_lt_of_mem hy
        exact ih y x (by omega) hd (plain_below hp hb)

theorem lastItem_single {ts : List TableExpr} (h : ts.length ≤ 1) : lastItem ts = allItems ts := by
  rcases ts with _ | ⟨t, _ | ⟨t', r⟩⟩
  · rfl
  · rfl
  · simp at h

theorem describes_all (ν : Nat → Str) (n : Nat) : ∀ (sc : Scope) (s : Select), sizeOf sc ≤ n →
    Describes lastItem norm ν s sc → SingleFrom s → Describes allItems norm ν s sc := by
  induction n with
  | zero => intro sc s h; cases sc; simp at h
  | succ n ih =>
    intro sc s hn hd hs
    cases hd with
    | mk s all xs ys fs ss h1 h2 h3 h4 h5 =>
      simp only [Scope.mk.sizeOf_spec] at hn
      rw [lastItem_single (hs s (below_refl _))]
      have key : ∀ (xs : List Select) (fs : List Scope), (∀ f ∈ fs, sizeOf f ≤ n) →
          (∀ x ∈ xs, Below (.s s) (.s x)) → List.Forall₂ (Describes lastItem norm ν) xs fs →
          List.Forall₂ (Describes allItems norm ν) xs fs := by
        intro xs fs hz hb hf
        induction hf with
        | nil => exact .nil
        | cons h _ ihf =>
          refine .cons (ih _ _ (hz _ (by simp)) h fun z hz' => hs z (below_trans (hb _ (by simp)) hz')) ?_
          exact ihf (fun f hf => hz f (by simp [hf])) fun x hx => hb x (by simp [hx])
      refine .mk s all xs ys fs ss h1 h2 h3 (key _ _ ?_ ?_ h4) (key _ _ ?_ ?_ h5)
      · intro f hf
        have := List.sizeOf_lt_of_mem hf
        omega
      · intro x hx
        obtain ⟨p, hp', ha⟩ := (h2 x).mp hx
        exact places_asks s p hp' x ha
      · intro f hf
        have := List.sizeOf_lt_of_mem hf
        omega
      · intro x hx
        obtain ⟨t, ht, hxt⟩ := (h3 x).mp hx
        exact fromItems_below s x t ht hxt

/-- C49 (partial): for a plain query in which no SELECT has a comma in FROM, and without a subquery in
the places the walker skips, a successful collection gives one scope, and it and the scopes in it keep
the tables of all FROM items.  (Missing: a comma in FROM; then only the tables of the last item are
kept, see `C63_scope_describes` and the counterexamples.) -/
theorem C49_keeps_tables_partial (s : Select) (hp : Plain s) (hf : Fresh s) (hr : NoRemoteSubquery s)
    (hs : SingleFrom s) (fuel : Nat) (hn : sizeOf s ≤ fuel) (scopes : List Scope)
    (h : collectStmtScopes norm schema fuel (.select s) = .ok (.ok scopes)) :
    ∃ ν sc, scopes = [sc] ∧ ν s.id = "<root>".toList ∧ Describes allItems norm ν s sc ∧
      (scopeNames sc).Nodup ∧ ∀ n ∈ scopeNames sc, n.head? = some '<' := by
  obtain ⟨ν, sc, h1, h2, h3, h4⟩ := C63_scope_describes s hp hf hr fuel hn scopes h
  exact ⟨ν, sc, h1, h2, describes_all ν _ _ s (Nat.le_refl _) h3 hs, h4⟩

/-- C64: when the collection succeeds on a plain query without a comma in FROM and without a subquery in
the places the walker skips, all references between the scopes can be followed: every subquery column
refers to one field scope of its scope, every field scope is referred to, and every sub scope belongs to
a table of its scope, at every depth; the names are different, so each reference leads to one scope. -/
theorem C64_linked (s : Select) (hp : Plain s) (hf : Fresh s) (hr : NoRemoteSubquery s)
    (hs : SingleFrom s) (fuel : Nat) (hn : sizeOf s ≤ fuel) (scopes : List Scope)
    (h : collectStmtScopes norm schema fuel (.select s) = .ok (.ok scopes)) :
    ∀ sc ∈ scopes, Linked sc ∧ (scopeNames sc).Nodup := by
  obtain ⟨ν, sc, rfl, -, hd, hnd⟩ := C49_keeps_tables_partial s hp hf hr hs fuel hn scopes h
  intro sc' hsc
  rw [List.mem_singleton] at hsc
  subst hsc
  exact ⟨describes_linked ν _ _ s (Nat.le_refl _) hd hp, hnd.1⟩

end Verif.PgScope
