import Verif.PgScope.EndToEnd
/-!
# C63: a query that begins with WITH is not analysed

The code sets an error for WITH after the last check of the query itself; the error is noticed at the next
check, in the first query of the WITH clause.  So there are two cases: that query is an ordinary SELECT, and
the statement is refused; or it is not, and the error is lost.
-/
namespace Verif.PgScope.Spec
open Verif.Builder Verif.Fields Verif.PgScope

/-- The query is a SELECT with at least one selected expression. -/
def SelectsSomething : Select → Prop
  | .mk _ _ _ _ (.clause exprs _ _ _ _ _ _) => exprs ≠ []
  | _ => False

/-- The WITH clause of the query, if it is a SELECT. -/
def withOf : Select → List Cte
  | .mk _ (some cs) _ _ (.clause _ _ _ _ _ _ _) => cs
  | _ => []

end Verif.PgScope.Spec

namespace Verif.PgScope
open Verif.Builder Verif.Fields Verif.Lib Verif.PgScope.Spec

variable {norm : Str → Str} {schema : Str}

/-! ## Collecting keeps pending errors -/

/-- Recorded errors stay as they are, a pending error stays pending, and `k` is not registered. -/
structure Keep (k : Nat) (st st' : St) : Prop where
  errors : st'.errors = st.errors
  last : st.lastError ≠ none → st'.lastError ≠ none
  infos : mapGet k st.infos = none → mapGet k st'.infos = none

theorem Keep.refl (k : Nat) (st : St) : Keep k st st := ⟨rfl, id, id⟩

theorem Keep.trans {k : Nat} {a b c : St} (h : Keep k a b) (h' : Keep k b c) : Keep k a c :=
  ⟨h'.errors.trans h.errors, fun x => h'.last (h.last x), fun x => h'.infos (h.infos x)⟩

theorem Keep.fail (k : Nat) (st : St) (e : Err) : Keep k st { st with lastError := some e } :=
  ⟨rfl, fun _ => by simp, id⟩

/-- no query below the node is `k` -/
def Avoids (k : Nat) (x : Nd) : Prop := ∀ y, Below x (.s y) → y.id ≠ k

theorem Avoids.kid {k : Nat} {x y : Nd} (h : Avoids k x) (hy : y ∈ kids x) : Avoids k y :=
  fun z hz => h z (below_trans ⟨_, .step _ _ _ _ hy (.refl _)⟩ hz)

theorem below_nodes {x z : Nd} (h : Below x z) : z ∈ nodes x := by
  obtain ⟨ns, h⟩ := h
  induction h with
  | refl x => rw [nodes_eq]; simp
  | step x y z ns hy _ ih => rw [nodes_eq]; simp only [List.mem_cons, List.mem_flatMap]; exact .inr ⟨y, hy, ih⟩

/-- there is a number that no query below carries -/
theorem avoids_some (l : List Nd) : ∃ k, ∀ x ∈ l, Avoids k x := by
  have le : ∀ (l : List Nat) (a : Nat), a ∈ l → a ≤ l.sum := by
    intro l
    induction l with
    | nil => simp
    | cons b l ih =>
      intro a ha
      rcases List.mem_cons.mp ha with rfl | ha
      · simp
      · have := ih a ha; simp; omega
  refine ⟨((l.flatMap nodes).filterMap selId).sum + 1, fun x hx y hy he => ?_⟩
  have := le ((l.flatMap nodes).filterMap selId) y.id
    (List.mem_filterMap.mpr ⟨_, List.mem_flatMap.mpr ⟨x, hx, below_nodes hy⟩, rfl⟩)
  omega

/-- a collection keeps pending errors -/
def KeepC (k : Nat) (f : St → Cols) : Prop := ∀ st cols st', f st = .ok (cols, st') → Keep k st st'

theorem KeepC.nothing (k : Nat) : KeepC k nothing := by
  rintro st cols st' ⟨⟩
  exact .refl _ _

theorem KeepC.fail (k : Nat) (e : Err) : KeepC k (failWith e) := by
  rintro st cols st' ⟨⟩
  exact .fail _ _ _

theorem KeepC.ok (k : Nat) (cols : List FieldColumn) : KeepC k fun st => .ok (cols, st) := by
  rintro st cols' st' ⟨⟩
  exact .refl _ _

theorem KeepC.ite {k : Nat} {b : Bool} {f g : St → Cols} (hf : KeepC k f) (hg : KeepC k g) :
    KeepC k fun st => if b then f st else g st := by
  cases b
  · exact hg
  · exact hf

theorem KeepC.then {k : Nat} {f : St → Cols} {g : St → Cols} (hf : KeepC k f) (hg : KeepC k g) :
    KeepC k fun st => andThen (f st) fun st => g st := by
  intro st cols st' h
  simp only [andThen] at h
  split at h
  · cases h
  · next a st1 h1 =>
    split at h
    · cases h
    · next b st2 h2 =>
      cases h
      exact (hf _ _ _ h1).trans (hg _ _ _ h2)

theorem mapGet_set_ne {β : Type} {k k' : Nat} (h : k' ≠ k) (v : β) (m : List (Nat × β)) :
    mapGet k (mapSet k' v m) = mapGet k m := by
  rw [Lib.mapGet_mapSet, if_neg (fun e => h e.symm)]

mutual

theorem keepE (k : Nat) (ty : FieldType) : ∀ e : Expr, Avoids k (.e e) → KeepC k (collectE norm schema ty e)
  | .nil, _ => by simp only [collectE]; exact .nothing _
  | .leaf _ ok, _ => by simp only [collectE]; exact .ite (.nothing _) (.fail _ _)
  | .node _ ks, h => by
    simp only [collectE]
    exact keepEs k ty ks fun e he => h.kid (by simp [kids, near, he])
  | .case subject whens els, h => by
    simp only [collectE]
    refine .then (keepE k ty subject (h.kid (by simp [kids, near]))) (.then (keepWs k ty whens ?_)
      (keepE k ty els (h.kid (by simp [kids, near]))))
    intro c v hw
    exact ⟨h.kid (by simp only [kids, near, List.mem_append, List.mem_flatMap]; exact .inl (.inr ⟨_, hw, by simp⟩)),
      h.kid (by simp only [kids, near, List.mem_append, List.mem_flatMap]; exact .inl (.inr ⟨_, hw, by simp⟩))⟩
  | .func args filter over orderBy, h => by
    simp only [collectE]
    refine .then (keepArgs k ty args fun e he => h.kid (by simp [kids, near, he]))
      (.then (keepE k ty filter (h.kid (by simp [kids, near]))) (.then (keepOver k ty over ?_)
        (keepEs k ty orderBy fun e he => h.kid (by simp [kids, remote, he]))))
    intro x hx
    refine h.kid ?_
    simp only [kids, near, remote, List.mem_append]
    rcases List.mem_append.mp hx with hx | hx
    · exact .inl (.inl (.inl hx))
    · exact .inr (.inl hx)
  | .name parts star, _ => by
    simp only [collectE]
    unfold nameRefs
    exact .ite (.fail _ _) (.ite (.ok _ _) (.ok _ _))
  | .unqualifiedStar, _ => by simp only [collectE]; exact .ok _ _
  | .tupleStar e, h => by
    have ih := keepE k ty e (h.kid (by simp [kids, near]))
    cases e with
    | name parts star => simp only [collectE]; unfold tupleStarName; exact .ite (.fail _ _) (.ok _ _)
    | _ => simpa only [collectE] using ih
  | .columnAccess e col, h => by
    have ih := keepE k ty e (h.kid (by simp [kids, near]))
    cases e with
    | name parts star => simp only [collectE]; unfold columnAccessName; exact .ite (.fail _ _) (.ok _ _)
    | _ => simpa only [collectE] using ih
  | .allColumns table, _ => by
    simp only [collectE]; unfold allColumnsRefs; exact .ite (.fail _ _) (.ok _ _)
  | .columnItem table col, _ => by
    simp only [collectE]; unfold columnItemRefs; exact .ite (.fail _ _) (.ok _ _)
  | .subquery i body, h => by
    intro st cols st' hs
    simp only [collectE, subqueryRefs] at hs
    cases body with
    | paren s =>
      simp only [newFieldInfo, Except.ok.injEq, Prod.mk.injEq] at hs
      obtain ⟨-, rfl⟩ := hs
      have hk : s.id ≠ k := by
        refine (h.kid (y := .b (.paren s)) (by simp [kids, near])).kid (y := .s s) (by simp [kids, near, remote]) s
          (below_refl _)
      exact ⟨rfl, id, fun h0 => by simpa [mapGet_set_ne hk] using h0⟩
    | _ =>
      simp only [newFieldInfo, failWith, Except.ok.injEq, Prod.mk.injEq] at hs
      obtain ⟨-, rfl⟩ := hs
      exact .fail _ _ _

theorem keepEs (k : Nat) (ty : FieldType) : ∀ es : List Expr, (∀ e ∈ es, Avoids k (.e e)) →
    KeepC k (collectEs norm schema ty es)
  | [], _ => by simp only [collectEs]; exact .nothing _
  | e :: es, h => by
    simp only [collectEs]
    exact .then (keepE k ty e (h e (by simp))) (keepEs k ty es fun e he => h e (by simp [he]))

theorem keepArgs (k : Nat) (ty : FieldType) : ∀ es : List Expr, (∀ e ∈ es, Avoids k (.e e)) →
    KeepC k (collectArgs norm schema ty es)
  | [], _ => by simp only [collectArgs]; exact .nothing _
  | e :: es, h => by
    have h1 := keepE k ty e (h e (by simp))
    have h2 := keepArgs k ty es fun e he => h e (by simp [he])
    cases e with
    | unqualifiedStar => simpa only [collectArgs] using h2
    | _ => simp only [collectArgs]; exact .then h1 h2

theorem keepWs (k : Nat) (ty : FieldType) : ∀ ws : List When,
    (∀ c v, When.mk c v ∈ ws → Avoids k (.e c) ∧ Avoids k (.e v)) → KeepC k (collectWs norm schema ty ws)
  | [], _ => by simp only [collectWs]; exact .nothing _
  | w :: ws, h => by
    simp only [collectWs]
    refine .then (keepW k ty w ?_) (keepWs k ty ws fun c v he => h c v (by simp [he]))
    rintro c v rfl
    exact h c v (by simp)

theorem keepW (k : Nat) (ty : FieldType) : ∀ w : When,
    (∀ c v, w = When.mk c v → Avoids k (.e c) ∧ Avoids k (.e v)) → KeepC k (collectW norm schema ty w)
  | .mk c v, h => by
    simp only [collectW]
    exact .then (keepE k ty c (h c v rfl).1) (keepE k ty v (h c v rfl).2)

theorem keepOver (k : Nat) (ty : FieldType) : ∀ o : Over, (∀ x ∈ overKids o ++ overOrder o, Avoids k x) →
    KeepC k (collectOver norm schema ty o)
  | .none, _ => by simp only [collectOver]; exact .nothing _
  | .mk ps os f, h => by
    simp only [collectOver]
    refine .then (keepEs k ty ps fun e he => h (.e e) ?_) (.then (keepEs k ty os fun e he => h (.e e) ?_)
      (keepFrame k ty f fun a z hf x hx => h x ?_))
    · cases f <;> simp [overKids, he]
    · simp [overOrder, he]
    · subst hf
      simp only [overKids, List.mem_append]
      exact .inl (.inr (List.mem_append.mp hx))

theorem keepFrame (k : Nat) (ty : FieldType) : ∀ f : Frame,
    (∀ a z, f = .mk a z → ∀ x ∈ boundKids a ++ boundKids z, Avoids k x) → KeepC k (collectFrame norm schema ty f)
  | .none, _ => by simp only [collectFrame]; exact .nothing _
  | .mk a z, h => by
    simp only [collectFrame]
    exact .then (keepBound k ty a fun x hx => h a z rfl x (by simp [hx]))
      (keepBound k ty z fun x hx => h a z rfl x (by simp [hx]))

theorem keepBound (k : Nat) (ty : FieldType) : ∀ b : Bound, (∀ x ∈ boundKids b, Avoids k x) →
    KeepC k (collectBound norm schema ty b)
  | .none, _ => by
    intro st cols st' h
    simp [collectBound] at h
  | .mk e, h => by
    simp only [collectBound]
    exact keepE k ty e (h _ (by simp [boundKids]))

end

/-! ## FROM items and clauses -/

/-- a collection of tables keeps pending errors -/
def KeepT (k : Nat) (f : St → Tabs) : Prop := ∀ st ts fs st', f st = .ok (ts, fs, st') → Keep k st st'

theorem KeepT.fail (k : Nat) (e : Err) : KeepT k (failTab e) := by
  rintro st ts fs st' ⟨⟩
  exact .fail _ _ _

theorem keepRows (k : Nat) : ∀ (es : List Expr), (∀ e ∈ es, Avoids k (.e e)) → ∀ st fs st',
    collectRows norm schema es st = .ok (fs, st') → Keep k st st'
  | [], _, st, fs, st', h => by cases h; exact .refl _ _
  | e :: es, ha, st, fs, st', h => by
    simp only [collectRows] at h
    split at h
    · cases h
    · next cols st1 h1 =>
      split at h
      · cases h
      · next fs' st2 h2 =>
        cases h
        exact (keepE k _ e (ha e (by simp)) _ _ _ h1).trans
          (keepRows k es (fun e he => ha e (by simp [he])) _ _ _ h2)

theorem keepRowsTab (k : Nat) (es : List Expr) (ha : ∀ e ∈ es, Avoids k (.e e)) :
    KeepT k (rowsTab norm schema es) := by
  intro st ts fs st' h
  simp only [rowsTab] at h
  split at h
  · cases h
  · next fs' st1 h1 =>
    cases h
    exact keepRows k es ha _ _ _ h1

theorem keepJoin (k : Nat) (rec_ : TableExpr → St → Tabs) (l r : TableExpr) (c : Cond) (hl : KeepT k (rec_ l))
    (hr : KeepT k (rec_ r)) (hc : ∀ e, c = .on e → Avoids k (.e e)) :
    KeepT k (collectJoin norm schema rec_ l r c) := by
  intro st ts fs st' h
  simp only [collectJoin] at h
  split at h
  · cases h
  · next lt lf st1 h1 =>
    split at h
    · cases h
    · next rt rf st2 h2 =>
      split at h
      · cases h
      · next cf st3 h3 =>
        cases h
        refine ((hl _ _ _ _ h1).trans (hr _ _ _ _ h2)).trans ?_
        cases c with
        | none => cases h3; exact .refl _ _
        | natural => cases h3; exact .fail _ _ _
        | on e =>
          simp only [collectCond] at h3
          split at h3
          · cases h3
          · next cols st4 h4 => cases h3; exact keepE k _ e (hc e rfl) _ _ _ h4
        | «using» cols => cases h3; exact .refl _ _

theorem keepT (k : Nat) : ∀ (n : Nat) (t : TableExpr), Avoids k (.t t) → KeepT k (collectT norm schema n t)
  | 0, t, _ => by intro st ts fs st' h; simp [collectT] at h
  | n + 1, t, ha => by
    have cond : ∀ l r c, t = .join l r c → ∀ e, c = .on e → Avoids k (.e e) := by
      rintro l r c rfl e rfl
      exact ha.kid (by simp [kids, near])
    cases t with
    | aliased t as lat =>
      have hk : Avoids k (.t t) := ha.kid (by simp [kids, near])
      cases t with
      | aliased t' a l => simp only [collectT]; exact .fail _ _
      | subquery i body =>
        intro st ts fs st' h
        simp only [collectT, derivedTable] at h
        cases body with
        | paren s =>
          simp only [newTableInfo, Except.ok.injEq, Prod.mk.injEq] at h
          obtain ⟨-, -, rfl⟩ := h
          have hne : s.id ≠ k := (hk.kid (y := .b (.paren s)) (by simp [kids, near])).kid (y := .s s)
            (by simp [kids, near, remote]) s (below_refl _)
          exact ⟨rfl, id, fun h0 => by simpa [mapGet_set_ne hne] using h0⟩
        | _ =>
          simp only [newTableInfo, failTab, Except.ok.injEq, Prod.mk.injEq] at h
          obtain ⟨-, -, rfl⟩ := h
          exact .fail _ _ _
      | tableName catalog sName table =>
        intro st ts fs st' h
        simp only [collectT, nameTab] at h
        split at h <;> cases h
        · exact .fail _ _ _
        · exact .refl _ _
      | objectName parts =>
        intro st ts fs st' h
        simp only [collectT, objectTab] at h
        split at h <;> cases h
        · exact .fail _ _ _
        · exact .refl _ _
      | statementSource => simp only [collectT]; exact .fail _ _
      | tableRef => simp only [collectT]; exact .fail _ _
      | paren t' => simp only [collectT]; exact keepT k n _ hk
      | join l r c =>
        simp only [collectT]
        exact keepJoin k _ l r c (keepT k n l (hk.kid (by cases c <;> simp [kids, near])))
          (keepT k n r (hk.kid (by cases c <;> simp [kids, near])))
          (by rintro e rfl; exact hk.kid (by simp [kids, near]))
      | rowsFrom items =>
        simp only [collectT]
        exact keepRowsTab k items fun e he => hk.kid (by simp [kids, near, he])
    | subquery i body =>
      intro st ts fs st' h
      simp only [collectT] at h
      cases h
      exact .refl _ _
    | tableName => simp only [collectT]; exact .fail _ _
    | objectName => simp only [collectT]; exact .fail _ _
    | statementSource => simp only [collectT]; exact .fail _ _
    | tableRef => simp only [collectT]; exact .fail _ _
    | paren t' => simp only [collectT]; exact keepT k n _ ha
    | join l r c =>
      simp only [collectT]
      exact keepJoin k _ l r c (keepT k n l (ha.kid (by cases c <;> simp [kids, near])))
        (keepT k n r (ha.kid (by cases c <;> simp [kids, near]))) (cond l r c rfl)
    | rowsFrom items =>
      simp only [collectT]
      exact keepRowsTab k items fun e he => ha.kid (by simp [kids, near, he])

/-- What a part of a clause does: errors stay, and `k` is not registered. -/
def KeepF (k : Nat) (f : St → Found) : Prop := ∀ st fs st', f st = .ok (fs, st') →
  (st.errors ≠ [] → st'.errors ≠ []) ∧ (mapGet k st.infos = none → mapGet k st'.infos = none)

theorem KeepF.then {k : Nat} {f g : St → Found} (hf : KeepF k f) (hg : KeepF k g) :
    KeepF k fun st => thenFound (f st) fun st => g st := by
  intro st fs st' h
  simp only [thenFound] at h
  split at h
  · cases h
  · next a st1 h1 =>
    split at h
    · cases h
    · next b st2 h2 =>
      cases h
      exact ⟨fun x => (hg _ _ _ h2).1 ((hf _ _ _ h1).1 x), fun x => (hg _ _ _ h2).2 ((hf _ _ _ h1).2 x)⟩

theorem KeepF.nil (k : Nat) : KeepF k fun st => .ok ([], st) := by
  rintro st fs st' ⟨⟩
  exact ⟨id, id⟩

theorem keepFound (k : Nat) (ty : FieldType) (as : Str) (e : Expr) (h : Avoids k (.e e)) :
    KeepF k (foundE norm schema ty as e) := by
  intro st fs st' hf
  simp only [foundE] at hf
  split at hf
  · cases hf
  · next cols st1 h1 =>
    have hk := keepE k ty e h _ _ _ h1
    simp only [Except.ok.injEq, keepField] at hf
    split at hf <;> cases hf
    · exact ⟨fun _ => by simp, hk.infos⟩
    · exact ⟨fun x => by rw [hk.errors]; exact x, hk.infos⟩

/-- a pending error is recorded by the next expression -/
theorem found_records (ty : FieldType) (as : Str) (e : Expr) {st st' : St} {fs : List Field}
    (h : foundE norm schema ty as e st = .ok (fs, st')) (hl : st.lastError ≠ none) : st'.errors ≠ [] := by
  simp only [foundE] at h
  split at h
  · cases h
  · next cols st1 h1 =>
    have hl1 : st1.lastError ≠ none := by
      obtain ⟨k, hk⟩ := avoids_some [.e e]
      have hk := hk _ (List.mem_singleton_self _)
      exact (keepE k ty e hk _ _ _ h1).last hl
    simp only [Except.ok.injEq, keepField] at h
    split at h
    · cases h; simp
    · next h2 => exact absurd h2 hl1

theorem keepSEs (k : Nat) : ∀ es : List SelExpr, (∀ e as, SelExpr.mk e as ∈ es → Avoids k (.e e)) →
    KeepF k (foundSEs norm schema es)
  | [], _ => by simp only [foundSEs]; exact .nil _
  | .mk e as :: es, h => by
    simp only [foundSEs]
    exact .then (keepFound k _ as e (h e as (by simp))) (keepSEs k es fun e as he => h e as (by simp [he]))

theorem keepFEs (k : Nat) : ∀ es : List Expr, (∀ e ∈ es, Avoids k (.e e)) → KeepF k (foundEs norm schema es)
  | [], _ => by simp only [foundEs]; exact .nil _
  | e :: es, h => by
    simp only [foundEs]
    exact .then (keepFound k _ [] e (h e (by simp))) (keepFEs k es fun e he => h e (by simp [he]))

theorem keepO (k : Nat) (ty : FieldType) : ∀ o : Option Expr, (∀ e ∈ o, Avoids k (.e e)) →
    KeepF k (foundO norm schema ty o)
  | none, _ => KeepF.nil k
  | some e, h => keepFound k ty [] e (h e rfl)

theorem keepTs (k fuel p : Nat) : ∀ ts : List TableExpr, (∀ t ∈ ts, Avoids k (.t t)) →
    KeepF k (foundTs norm schema fuel p ts)
  | [], _ => by simp only [foundTs]; exact .nil _
  | t :: ts, ha => by
    intro st fs st' h
    simp only [foundTs] at h
    split at h
    · cases h
    · next tables fields st1 h1 =>
      have hk := keepT k fuel t (ha t (by simp)) _ _ _ _ h1
      simp only [thenFound] at h
      split at h
      · cases h
      · next b st2 h2 =>
        cases h
        have h3 := keepTs k fuel p ts (fun t ht => ha t (by simp [ht])) _ _ _ h2
        refine ⟨fun x => h3.1 ?_, fun x => h3.2 ?_⟩
        · simp only [St.update, recordError]
          split
          · simp
          · rw [hk.errors]; exact x
        · simp only [St.update, recordError]
          split <;> exact hk.infos x

theorem keepWindow (k : Nat) (w : Bool) : KeepF k (foundWindow w) := by
  intro st fs st' h
  simp only [foundWindow, Except.ok.injEq, Prod.mk.injEq] at h
  obtain ⟨-, rfl⟩ := h
  cases w
  · exact ⟨id, id⟩
  · exact ⟨fun _ => by simp, id⟩

theorem keepLimit (k : Nat) : ∀ l : Limit, (∀ c o, l = .mk c o → Avoids k (.e c) ∧ Avoids k (.e o)) →
    KeepF k (foundLimit norm schema l)
  | .none, _ => KeepF.nil k
  | .mk c o, h => KeepF.then (keepFound k _ [] c (h c o rfl).1) (keepFound k _ [] o (h c o rfl).2)


/-- the children of the query besides its WITH clause -/
def ownKids : Select → List Nd
  | .mk _ _ orderBy limit body =>
    orderBy.map .e ++ (match limit with | .none => [] | .mk count offset => [.e count, .e offset]) ++ [.b body]

/-- entering a clause: errors stay, `k` is not registered, and WITH is pending -/
theorem enterClause_keeps (k fuel : Nat) (node : Node) (p : Nat) (s : Select) (ha : ∀ x ∈ ownKids s, Avoids k x)
    {st st' : St} (h : enterClause norm schema fuel node p s st = .ok st') :
    (st.errors ≠ [] → st'.errors ≠ []) ∧ (mapGet k st.infos = none → mapGet k st'.infos = none) ∧
      (withOf s ≠ [] → st'.lastError ≠ none) ∧
      (SelectsSomething s → st.lastError ≠ none → st'.errors ≠ []) := by
  obtain ⟨i, w, orderBy, limit, body⟩ := s
  cases body with
  | clause exprs tables where_ groupBy having window distinctOn =>
    have hb : ∀ x ∈ kids (.b (.clause exprs tables where_ groupBy having window distinctOn)), Avoids k x :=
      fun x hx => (ha _ (by simp [ownKids])).kid hx
    have k2 := keepTs (norm := norm) (schema := schema) k fuel p tables fun t ht => hb _ (by simp [kids, near, ht])
    have k3 := keepO (norm := norm) (schema := schema) k .condition where_ fun e he => hb _ (by simp [kids, near, Option.mem_def.mp he])
    have k4 := keepFEs (norm := norm) (schema := schema) k groupBy fun e he => hb _ (by simp [kids, near, he])
    have k5 := keepO (norm := norm) (schema := schema) k .reference having fun e he => hb _ (by simp [kids, near, Option.mem_def.mp he])
    have k6 := keepWindow k window
    have k7 := keepFEs (norm := norm) (schema := schema) k orderBy fun e he => ha _ (by simp [ownKids, he])
    have k8 := keepLimit (norm := norm) (schema := schema) k limit (by rintro c o rfl; exact ⟨ha _ (by simp [ownKids]), ha _ (by simp [ownKids])⟩)
    have rest := KeepF.then k2 (KeepF.then k3 (KeepF.then k4 (KeepF.then k5 (KeepF.then k6 (KeepF.then k7 k8)))))
    have hse : ∀ e as, SelExpr.mk e as ∈ exprs → Avoids k (.e e) := by
      intro e as he
      refine hb _ ?_
      simp only [kids, near, List.mem_append, List.mem_map]
      exact .inl (.inl (.inl (.inl (.inl (.inl ⟨_, he, rfl⟩)))))
    have all := KeepF.then (keepSEs (norm := norm) (schema := schema) k exprs hse) rest
    simp only [enterClause] at h
    split at h
    · cases h
    · next found st1 h1 =>
      cases h
      have ha1 := all _ _ _ h1
      refine ⟨fun x => ?_, fun x => ?_, fun hw => ?_, fun hsel hl => ?_⟩
      · simp only [finishEnter, St.update, withError]
        split <;> exact ha1.1 x
      · simp only [finishEnter, St.update, withError]
        split <;> exact ha1.2 x
      · cases w with
        | none => exact absurd rfl hw
        | some cs => simp [finishEnter, St.update, withError]
      · simp only [finishEnter, St.update, withError]
        have : st1.errors ≠ [] := by
          cases exprs with
          | nil => exact absurd rfl hsel
          | cons se ses =>
            obtain ⟨e, as⟩ := se
            simp only [foundSEs, thenFound_assoc] at h1
            simp only [thenFound] at h1
            split at h1
            · cases h1
            · next a st2 h2 =>
              have e2 := found_records _ as e h2 hl
              have tail := KeepF.then (keepSEs (norm := norm) (schema := schema) k ses
                fun e as he => hse e as (by simp [he])) rest
              split at h1
              · cases h1
              · next b st3 h3 =>
                cases h1
                exact (tail _ _ _ h3).1 e2
        split <;> exact this
  | _ =>
    simp only [enterClause, Except.ok.injEq] at h
    subst h
    exact ⟨id, id, fun h => absurd rfl (by cases w <;> exact h), fun h => h.elim⟩

theorem newScope_errors (i : Nat) (st : St) : (newScope i st).errors = st.errors ∧
    (newScope i st).lastError = st.lastError ∧ (newScope i st).infos = st.infos := by
  simp only [newScope]
  split <;> exact ⟨rfl, rfl, rfl⟩

/-- recorded errors stay -/
theorem scopeStep_errors {fuel : Nat} {ev : Ev} {st st' : St} (h : scopeStep norm schema fuel st ev = .ok st')
    (he : st.errors ≠ []) : st'.errors ≠ [] := by
  have hl : ∀ node, leave node st = .ok st' → st'.errors ≠ [] := by
    intro node h
    simp only [leave] at h
    split at h
    · cases h
    · split at h <;> cases h <;> exact he
  cases ev with
  | enterSelect s =>
    simp only [scopeStep, enterSelect] at h
    split at h
    · cases h; exact he
    · obtain ⟨k, hk⟩ := avoids_some (ownKids s)
      exact (enterClause_keeps k _ _ _ s hk h).1 (by rw [(newScope_errors _ _).1]; exact he)
  | leaveSelect s => exact hl _ h
  | enterSubquery i body =>
    simp only [scopeStep, enterSubquery] at h
    split at h
    · next s =>
      split at h
      · obtain ⟨k, hk⟩ := avoids_some (ownKids s)
        exact (enterClause_keeps k _ _ _ s hk h).1 he
      · cases h; exact he
    · cases h; exact he
  | leaveSubquery i => exact hl _ h
  | enterAliased t as => cases h; exact he
  | plain => exact hl _ h
  | unknown =>
    simp only [scopeStep, leave] at h
    split at h
    · cases h
    · split at h <;> cases h <;> exact he

theorem runScopes_errors {fuel : Nat} : ∀ (evs : List Ev) {st st' : St},
    runScopes norm schema fuel evs st = .ok st' → st.errors ≠ [] → st'.errors ≠ []
  | [], st, st', h, he => by
    simp only [runScopes, List.foldlM_nil] at h
    cases h; exact he
  | ev :: evs, st, st', h, he => by
    simp only [runScopes, List.foldlM_cons] at h
    cases hs : scopeStep norm schema fuel st ev with
    | error f => rw [hs] at h; cases h
    | ok st1 =>
      rw [hs] at h
      exact runScopes_errors evs h (scopeStep_errors hs he)

/-! ## C63 -/

/-- the first query of WITH is not one of the queries in the rest of the statement -/
theorem fresh_with {s q : Select} {name : Str} {cs : List Cte} (hf : Fresh s) (hw : withOf s = .mk name q :: cs) :
    ∀ x ∈ ownKids s, Avoids q.id x := by
  obtain ⟨i, w, orderBy, limit, body⟩ := s
  have hw' : w = some (.mk name q :: cs) := by
    cases w with
    | none => simp [withOf] at hw
    | some c =>
      cases body with
      | clause => simp only [withOf] at hw; rw [hw]
      | _ => simp [withOf] at hw
  subst hw'
  intro x hx y hy e
  have hn := hf.1
  have hc : (Nd.s q) ∈ nodes (.c (.mk name q)) := by
    rw [nodes_eq]
    simp only [List.mem_cons, List.mem_flatMap]
    exact .inr ⟨.s q, by simp [kids, near], by rw [nodes_eq]; simp⟩
  have hsplit : ∃ before after, kids (.s (.mk i (some (.mk name q :: cs)) orderBy limit body)) =
      .c (.mk name q) :: (before ++ x :: after) := by
    have hm : x ∈ (cs.map Nd.c ++ orderBy.map Nd.e ++
        (match limit with | .none => [] | .mk count _ => [.e count]) ++ [.b body]) ++
        (match limit with | .none => [] | .mk _ offset => [.e offset]) := by
      cases limit with
      | none => simp only [ownKids, List.mem_append, List.append_nil] at hx ⊢; tauto
      | mk c o =>
        simp only [ownKids, List.mem_append, List.mem_cons, List.not_mem_nil, or_false] at hx ⊢; tauto
    obtain ⟨b, a, hba⟩ := List.append_of_mem hm
    refine ⟨b, a, ?_⟩
    rw [← hba]
    cases limit <;> simp [kids, near, remote]
  obtain ⟨b, a, hk⟩ := hsplit
  rw [nodes_eq, hk] at hn
  simp only [List.flatMap_cons, List.flatMap_append, List.filterMap_cons, List.filterMap_append, selId,
    List.nodup_cons] at hn
  have hn := hn.2
  rw [List.nodup_append] at hn
  refine hn.2.2 q.id (List.mem_filterMap.mpr ⟨_, hc, rfl⟩) q.id ?_ rfl
  simp only [List.mem_append]
  exact .inr (.inl (List.mem_filterMap.mpr ⟨_, below_nodes hy, by simp [selId, e]⟩))

/-- **C63, WITH.** A query that begins with WITH is never analysed if the first query of the WITH clause is a
SELECT with at least one selected expression: the scopes are not collected. -/
theorem C63_with_refused (norm : Str → Str) (schema : Str) (fuel : Nat) (s q : Select) (hf : Fresh s) (name : Str)
    (cs : List Cte) (hw : withOf s = .mk name q :: cs) (hq : SelectsSomething q) (scopes : List Scope) :
    collectStmtScopes norm schema fuel (.select s) ≠ .ok (.ok scopes) := by
  intro h
  simp only [collectStmtScopes] at h
  split at h
  · cases h
  · next st hrun =>
    split at h
    · cases h
    · split at h
      · cases h
      · next he =>
        refine absurd ?_ he
        have hfw := fresh_with hf hw
        have hws : ∃ rest, walkS s = .enterSelect s :: .enterSelect q :: rest := by
          obtain ⟨i, w, orderBy, limit, body⟩ := s
          have hw' : w = some (.mk name q :: cs) := by
            cases w with
            | none => simp [withOf] at hw
            | some c =>
              cases body with
              | clause => simp only [withOf] at hw; rw [hw]
              | _ => simp [withOf] at hw
          subst hw'
          obtain ⟨qi, qw, qo, ql, qb⟩ := q
          exact ⟨_, by simp only [walkS, walkWith, walkCtes, walkCte, List.cons_append, List.nil_append]; rfl⟩
        obtain ⟨rest, hws⟩ := hws
        rw [hws] at hrun
        simp only [runScopes, List.foldlM_cons, scopeStep] at hrun
        have e1 : enterSelect norm schema fuel s {} = enterClause norm schema fuel (.select s.id)
            ({} : St).heap.length s (newScope s.id {}) := by
          simp [enterSelect, mapGet]
        rw [e1] at hrun
        cases h1 : enterClause norm schema fuel (.select s.id) ({} : St).heap.length s (newScope s.id {}) with
        | error f => rw [h1] at hrun; cases hrun
        | ok st1 =>
          rw [h1] at hrun
          have k1 := enterClause_keeps q.id fuel _ _ s hfw h1
          have hnone : mapGet q.id st1.infos = none := k1.2.1 (by rw [(newScope_errors _ _).2.2]; rfl)
          have hlast : st1.lastError ≠ none := k1.2.2.1 (by rw [hw]; simp)
          have hrun1 : (enterSelect norm schema fuel q st1 >>= fun s'' =>
              List.foldlM (scopeStep norm schema fuel) s'' rest) = Except.ok st := hrun
          cases h2 : enterSelect norm schema fuel q st1 with
          | error f => rw [h2] at hrun1; cases hrun1
          | ok st2 =>
            rw [h2] at hrun1
            have hrun' : runScopes norm schema fuel rest st2 = .ok st := hrun1
            refine runScopes_errors rest hrun' ?_
            simp only [enterSelect, hnone, Option.bind_none, Option.isSome_none] at h2
            obtain ⟨k, hk⟩ := avoids_some (ownKids q)
            exact (enterClause_keeps k fuel _ _ q hk h2).2.2.2 hq (by rw [(newScope_errors _ _).2.1]; exact hlast)

/-- **C68, WITH.** So it gets no suggestions, whatever the catalogue answers. -/
theorem C68_with_no_suggestions {ε T : Type} (o : Orders) (norm : Str → Str) (fuel : Nat)
    (cols : List Str → Except ε (List T)) (f : T → Name × Name × Bool) (s q : Select) (hf : Fresh s) (name : Str)
    (cs : List Cte) (hw : withOf s = .mk name q :: cs) (hq : SelectsSomething q) (out : List Index.IndexTarget) :
    listPossibleIndexes o norm fuel cols f (.select s) ≠ .ok (.ok out) := by
  intro h
  obtain ⟨names, rows, schemas, scopes, h1, h2, h3, h4, h5⟩ := list_ok h
  exact C63_with_refused norm _ fuel s q hf name cs hw hq scopes h4

/-! ## Examples -/

/-- `SELECT id FROM users` -/
def exUsers (i : Nat) : Select := .mk i none [] .none (.clause [.mk (.name ["id".toList] false) []]
  [.aliased (.tableName [] [] "users".toList) [] false] none [] none false [])

/-- `WITH a AS (SELECT id FROM users) SELECT id FROM tasks` -/
def exWith : Select := .mk 0 (some [.mk ['a'] (exUsers 1)]) [] .none (.clause [.mk (.name ["id".toList] false) []]
  [.aliased (.tableName [] [] "tasks".toList) [] false] none [] none false [])

/-- `WITH a AS (VALUES (1)) SELECT id FROM tasks` -/
def exWithValues : Select := .mk 0 (some [.mk ['a'] (.mk 1 none [] .none (.values [.leaf true true]))]) [] .none
  (.clause [.mk (.name ["id".toList] false) []]
    [.aliased (.tableName [] [] "tasks".toList) [] false] none [] none false [])

theorem exWith_fresh : Fresh exWith := fresh_of _ 20 (by decide +kernel) (by decide +kernel) (by decide +kernel)

/-- the hypotheses hold of a query -/
example (scopes : List Scope) : collectStmtScopes lower "public".toList 100 (.select exWith) ≠ .ok (.ok scopes) :=
  C63_with_refused _ _ _ exWith (exUsers 1) exWith_fresh ['a'] [] rfl (by simp [SelectsSomething, exUsers]) scopes

/-- and it is the WITH that is refused -/
example : (match collectStmtScopes lower "public".toList 100 (.select exWith) with
    | .ok (.error es) => es | _ => []) = [.withClause] := by decide +kernel

/-- **C63, C69, WITH with VALUES.** The restriction to a SELECT is needed: `WITH a AS (VALUES (1)) SELECT id FROM
tasks` is not refused, the error is lost; the scopes are collected and the analysis then crashes on them. -/
theorem C69_with_values_crashes : Fresh exWithValues ∧
    (∃ scopes, collectStmtScopes lower "public".toList 30 (.select exWithValues) = .ok (.ok scopes)) ∧
    listPossibleIndexes idOrders lower 30 exCols id (.select exWithValues) = .error .panic := by
  refine ⟨fresh_of _ 20 (by decide +kernel) (by decide +kernel) (by decide +kernel), ?_, ?_⟩
  · have key : ∀ r : Except Fail (Except (List Err) (List Scope)),
        (match r with | .ok (.ok _) => true | _ => false) = true → ∃ scopes, r = .ok (.ok scopes) := by
      intro r h
      split at h
      · exact ⟨_, rfl⟩
      · cases h
    exact key _ (by decide +kernel)
  · have key : ∀ r : Except Fail (Except (IndexErr Unit) (List Index.IndexTarget)),
        (match r with | .error .panic => true | _ => false) = true → r = .error .panic := by
      intro r h
      split at h
      · rfl
      · cases h
    exact key _ (by decide +kernel)

end Verif.PgScope
