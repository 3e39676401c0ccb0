import Verif.PgScope.Crash
/-!
# Non-vacuity of the theorems about scopes, and counterexamples
-/
namespace Verif.PgScope
open Verif.Builder Verif.Fields Verif.Lib Verif.PgScope.Spec

/-! ## Checking the hypotheses on a concrete query -/

/-- `nodes` with a bound on the depth -/
def nodesN : Nat → Nd → List Nd
  | 0, _ => []
  | n + 1, x => x :: (kids x).flatMap (nodesN n)

theorem nodes_nodesN (n : Nat) (x : Nd) (h : allNd (fun _ => true) n x = true) : nodes x = nodesN n x := by
  induction n generalizing x with
  | zero => simp [allNd] at h
  | succ n ih =>
    simp [allNd] at h
    rw [nodes_eq, nodesN]
    congr 1
    exact flatMap_congr' fun y hy => ih y (h y hy)

theorem fresh_of (s : Select) (n : Nat) (h : allNd (fun _ => true) n (.s s) = true)
    (h1 : ((nodesN n (.s s)).filterMap selId).Nodup) (h2 : ((nodesN n (.s s)).filterMap subId).Nodup) :
    Fresh s := by
  unfold Fresh
  rw [nodes_nodesN n _ h]
  exact ⟨h1, h2⟩

/-- see `Bare` -/
def bareB : TableExpr → Bool
  | .subquery _ _ => true
  | .tableName _ _ _ => true
  | _ => false

theorem bare_of {t : TableExpr} (h : bareB t = false) : ¬Bare t := by
  cases t <;> simp [bareB, Bare] at h ⊢

/-- see `ParenBody` -/
def parenB : Body → Bool
  | .paren _ => true
  | _ => false

theorem paren_of {b : Body} (h : parenB b = true) : ParenBody b := by
  cases b <;> simp [parenB] at h
  exact ⟨_, rfl⟩

/-- both bounds present -/
def boundsB : Over → Bool
  | .mk _ _ (.mk .none _) => false
  | .mk _ _ (.mk _ .none) => false
  | _ => true

/-- see `PlainNode` -/
def plainB (n : Nat) : Nd → Bool
  | .s (.mk _ none _ _ (.clause _ tables _ _ _ _ distinctOn)) =>
    tables.all (fun t => !bareB t) && distinctOn.all fun e => allNd notSubquery n (.e e)
  | .s _ => false
  | .b _ => true
  | .e (.func _ _ over _) => boundsB over
  | .e (.subquery _ b) => parenB b
  | .e (.allColumns _) => false
  | .e (.columnItem _ _) => false
  | .e _ => true
  | .t (.aliased (.aliased _ _ _) _ _) => false
  | .t (.aliased (.paren _) _ _) => false
  | .t (.subquery _ b) => parenB b
  | .t (.join l r _) => !bareB l && !bareB r
  | .t (.paren _) => false
  | .t _ => true
  | .c _ => false

theorem plainB_sound (n : Nat) (z : Nd) (h : plainB n z = true) : PlainNode z := by
  cases z with
  | e x =>
    cases x with
    | func args filter over orderBy =>
      refine .func _ _ _ _ ?_
      rintro ps os a z rfl
      cases a <;> cases z <;> simp [plainB, boundsB] at h ⊢
    | subquery i b => exact .subquery _ _ (paren_of h)
    | allColumns => simp [plainB] at h
    | columnItem => simp [plainB] at h
    | _ => constructor
  | t x =>
    cases x with
    | aliased t as l =>
      refine .aliased _ _ _ ?_ ?_
      · rintro t' a l' rfl; simp [plainB] at h
      · rintro t' rfl; simp [plainB] at h
    | subquery i b => exact .derived _ _ (paren_of h)
    | join l r c =>
      simp [plainB] at h
      exact .join _ _ _ (bare_of h.1) (bare_of h.2)
    | paren => simp [plainB] at h
    | _ => constructor
  | b x => exact .b x
  | s x =>
    obtain ⟨id, w, o, l, b⟩ := x
    cases w with
    | some _ => simp [plainB] at h
    | none =>
      cases b with
      | clause exprs tables where_ groupBy having window distinctOn =>
        simp [plainB] at h
        refine .s _ _ _ _ _ _ _ _ _ _ (fun t ht => bare_of (h.1 t ht)) ?_
        rintro e he i b ⟨ns, hb⟩
        have := allNd_below notSubquery hb n (h.2 e he)
        simp [notSubquery] at this
      | _ => simp [plainB] at h
  | c x => simp [plainB] at h

theorem plain_of (s : Select) (n : Nat) (h : allNd (plainB n) n (.s s) = true) : Plain s := by
  rintro z ⟨ns, hz⟩
  exact plainB_sound n z (allNd_below _ hz n h)

/-- at most one FROM item -/
def singleB : Nd → Bool
  | .s x => (fromItems x).length ≤ 1
  | _ => true

theorem single_of (s : Select) (n : Nat) (h : allNd singleB n (.s s) = true) : SingleFrom s := by
  rintro x ⟨ns, hx⟩
  simpa [singleB] using allNd_below _ hx n h

/-- neither `Refused` nor `Unsupported`, for names without schema -/
def cleanB : Nd → Bool
  | .e (.leaf known ok) => known && ok
  | .e (.node known _) => known
  | .e (.allColumns _) => false
  | .e (.columnItem _ _) => false
  | .e (.name parts _) => parts.length ≤ 2
  | .e (.tupleStar (.name parts _)) => parts.length ≤ 1
  | .e (.columnAccess (.name parts _) _) => parts.length ≤ 1
  | .t (.aliased (.tableName c s _) _ _) => c = [] && s = []
  | .t (.objectName _) => false
  | .t .statementSource => false
  | .t .tableRef => false
  | .t (.paren _) => false
  | .t (.join _ _ .natural) => false
  | .t (.join _ _ (.using _)) => false
  | .b (.clause _ _ _ _ _ window _) => !window
  | .c _ => false
  | _ => true

theorem otherSchema_short {schema : Str} {parts : List Str} {n : Nat} (h : parts.length ≤ n) :
    ¬OtherSchema schema parts n := by
  rintro (h1 | ⟨x, h1, _⟩)
  · omega
  · rw [List.getElem?_eq_none h] at h1; cases h1

theorem clean_of (norm : Str → Str) (schema : Str) (hnorm : norm [] = []) (s : Select) (n : Nat)
    (h : allNd cleanB n (.s s) = true) (z : Nd) (hz : Below (.s s) z) :
    ¬Refused z ∧ ¬Unsupported norm schema z := by
  obtain ⟨ns, hz⟩ := hz
  have h1 := allNd_below _ hz n h
  constructor
  · intro h2
    cases h2 <;> simp [cleanB] at h1
  · intro h2
    cases h2 with
    | leaf => simp [cleanB] at h1
    | name parts star h3 => simp [cleanB] at h1; exact otherSchema_short h1 h3
    | tupleStar parts star h3 => simp [cleanB] at h1; exact otherSchema_short h1 h3
    | columnAccess parts star c h3 => simp [cleanB] at h1; exact otherSchema_short h1 h3
    | table catalog sName table as l h3 =>
      simp [cleanB] at h1
      obtain ⟨rfl, rfl⟩ := h1
      simp [hnorm] at h3
    | window => simp [cleanB] at h1

/-! ## A query -/

/-- `SELECT u.name, (SELECT count(status) FROM tasks) AS cnt FROM users u
JOIN (SELECT user_id FROM posts WHERE kind = 1) p ON u.id = p.user_id
WHERE EXISTS (SELECT id FROM tags WHERE tags.user_id = u.id)` -/
def exScopes : Select :=
  .mk 0 none [] .none (.clause
    [.mk (.name ["name".toList, ['u']] false) [],
     .mk (.subquery 10 (.paren (.mk 1 none [] .none (.clause
        [.mk (.func [.name ["status".toList] false] .nil .none []) []]
        [.aliased (.tableName [] [] "tasks".toList) [] false] none [] none false [])))) "cnt".toList]
    [.join (.aliased (.tableName [] [] "users".toList) ['u'] false)
      (.aliased (.subquery 11 (.paren (.mk 2 none [] .none (.clause
        [.mk (.name ["user_id".toList] false) []] [.aliased (.tableName [] [] "posts".toList) [] false]
        (some (.node true [.name ["kind".toList] false, .leaf true true])) [] none false [])))) ['p'] false)
      (.on (.node true [.name ["id".toList, ['u']] false, .name ["user_id".toList, ['p']] false]))]
    (some (.subquery 12 (.paren (.mk 3 none [] .none (.clause
        [.mk (.name ["id".toList] false) []] [.aliased (.tableName [] [] "tags".toList) [] false]
        (some (.node true [.name ["user_id".toList, "tags".toList] false, .name ["id".toList, ['u']] false]))
        [] none false []))))) [] none false [])

theorem exScopes_plain : Plain exScopes := plain_of _ 20 (by decide +kernel)
theorem exScopes_fresh : Fresh exScopes :=
  fresh_of _ 20 (by decide +kernel) (by decide +kernel) (by decide +kernel)
theorem exScopes_noRemote : NoRemoteSubquery exScopes := noRemote_of _ 20 (by decide +kernel)
theorem exScopes_single : SingleFrom exScopes := single_of _ 20 (by decide +kernel)

/-- the hypotheses of `C50_returns_partial`, `C63_scope_describes`, `C63_accepts`,
`C49_keeps_tables_partial` and `C64_linked` hold together -/
example : ∃ sc, collectStmtScopes lower public_ (sizeOf exScopes) (.select exScopes) = .ok (.ok [sc]) ∧
    Linked sc ∧ (scopeNames sc).Nodup ∧
    ∃ ν, ν 0 = "<root>".toList ∧ Describes allItems lower ν exScopes sc := by
  obtain ⟨sc, h⟩ := C63_accepts (norm := lower) (schema := public_) exScopes exScopes_plain exScopes_fresh
    _ (Nat.le_refl _) (clean_of lower public_ rfl exScopes 20 (by decide +kernel))
  have h1 := C64_linked exScopes exScopes_plain exScopes_fresh exScopes_noRemote exScopes_single _
    (Nat.le_refl _) _ h sc (by simp)
  obtain ⟨ν, sc', h2, h3, h4, -⟩ := C49_keeps_tables_partial exScopes exScopes_plain exScopes_fresh
    exScopes_noRemote exScopes_single _ (Nat.le_refl _) _ h
  simp at h2
  subst h2
  exact ⟨sc, h, h1.1, h1.2, ν, h3, h4⟩

mutual

/-- equality of scopes -/
def scopeEq : Scope → Scope → Bool
  | .mk n f fs t ss, .mk n' f' fs' t' ss' =>
    n = n' && f = f' && scopesEq fs fs' && t = t' && scopesEq ss ss'

/-- equality of lists of scopes -/
def scopesEq : List Scope → List Scope → Bool
  | [], [] => true
  | a :: r, b :: r' => scopeEq a b && scopesEq r r'
  | _, _ => false

end

mutual

theorem scopeEq_sound : ∀ a b : Scope, scopeEq a b = true → a = b
  | .mk n f fs t ss, .mk n' f' fs' t' ss', h => by
    simp only [scopeEq, Bool.and_eq_true, decide_eq_true_eq] at h
    obtain ⟨⟨⟨⟨rfl, rfl⟩, h1⟩, rfl⟩, h2⟩ := h
    rw [scopesEq_sound fs fs' h1, scopesEq_sound ss ss' h2]

theorem scopesEq_sound : ∀ a b : List Scope, scopesEq a b = true → a = b
  | [], [], _ => rfl
  | a :: r, b :: r', h => by
    simp only [scopesEq, Bool.and_eq_true] at h
    rw [scopeEq_sound a b h.1, scopesEq_sound r r' h.2]
  | [], _ :: _, h => by simp [scopesEq] at h
  | _ :: _, [], h => by simp [scopesEq] at h

end

/-- the result is this one -/
def gives (r : Except Fail (Except (List Err) (List Scope))) (sc : List Scope) : Bool :=
  match r with
  | .ok (.ok l) => scopesEq l sc
  | _ => false

theorem gives_sound {r : Except Fail (Except (List Err) (List Scope))} {sc : List Scope}
    (h : gives r sc = true) : r = .ok (.ok sc) := by
  unfold gives at h
  split at h
  · rw [scopesEq_sound _ _ h]
  · cases h

/-- the scopes of `exScopes` -/
example : collectStmtScopes lower public_ 30 (.select exScopes) = .ok (.ok
    [.mk "<root>".toList
      [⟨[], [{ table := ['u'], name := "name".toList, type := .reference }]⟩,
       ⟨"cnt".toList, [{ referenceName := "<field0>".toList, table := [], name := [], type := .subquery }]⟩,
       ⟨[], [{ table := ['u'], name := "id".toList, type := .condition },
         { table := ['p'], name := "user_id".toList, type := .condition }]⟩,
       ⟨[], [{ referenceName := "<field1>".toList, table := [], name := [], type := .subquery }]⟩]
      [.mk "<field0>".toList [⟨[], [{ table := [], name := "status".toList, type := .reference }]⟩] []
        [⟨[], "tasks".toList, false⟩] [],
       .mk "<field1>".toList [⟨[], [{ table := [], name := "id".toList, type := .reference }]⟩,
         ⟨[], [{ table := "tags".toList, name := "user_id".toList, type := .condition },
           { table := ['u'], name := "id".toList, type := .condition }]⟩] []
        [⟨[], "tags".toList, false⟩] []]
      [⟨['u'], "users".toList, false⟩, ⟨['p'], "<select0>".toList, false⟩]
      [.mk "<select0>".toList [⟨[], [{ table := [], name := "user_id".toList, type := .reference }]⟩,
         ⟨[], [{ table := [], name := "kind".toList, type := .condition }]⟩] []
        [⟨[], "posts".toList, false⟩] []]]) :=
  gives_sound (by decide +kernel)

/-! ## Counterexamples -/

/-- `SELECT a.id, b.id FROM a, b` -/
def exComma : Select :=
  .mk 0 none [] .none (.clause [.mk (.name ["id".toList, ['a']] false) [], .mk (.name ["id".toList, ['b']] false) []]
    [.aliased (.tableName [] [] ['a']) [] false, .aliased (.tableName [] [] ['b']) [] false]
    none [] none false [])

/-- C49, without the restriction: it fails.  Of `FROM a, b` only `b` is kept, and the collection reports
success. -/
theorem C49_comma_loses_table : Plain exComma ∧ Fresh exComma ∧ NoRemoteSubquery exComma ∧
    ∃ sc, collectStmtScopes lower public_ 30 (.select exComma) = .ok (.ok [sc]) ∧
      sc.tables = [⟨[], ['b'], false⟩] ∧
      ∀ ν, ⟨[], ['a'], false⟩ ∈ (fromItems exComma).flatMap (fromTables lower ν) := by
  refine ⟨plain_of _ 20 (by decide +kernel),
    fresh_of _ 20 (by decide +kernel) (by decide +kernel) (by decide +kernel),
    noRemote_of _ 20 (by decide +kernel), .mk "<root>".toList
      [⟨[], [{ table := ['a'], name := "id".toList, type := .reference }]⟩,
       ⟨[], [{ table := ['b'], name := "id".toList, type := .reference }]⟩] []
      [⟨[], ['b'], false⟩] [], gives_sound (by decide +kernel), rfl, ?_⟩
  intro ν
  simp [exComma, fromItems, fromTables, lower]

/-- `SELECT x.id FROM (SELECT id FROM users) x, tasks` -/
def exCommaDerived : Select :=
  .mk 0 none [] .none (.clause [.mk (.name ["id".toList, ['x']] false) []]
    [.aliased (.subquery 10 (.paren (.mk 1 none [] .none (.clause [.mk (.name ["id".toList] false) []]
        [.aliased (.tableName [] [] "users".toList) [] false] none [] none false [])))) ['x'] false,
      .aliased (.tableName [] [] "tasks".toList) [] false]
    none [] none false [])

/-- C64, without the restriction to one FROM item: it fails.  The sub scope has no table. -/
theorem C64_comma_unlinked : Plain exCommaDerived ∧ Fresh exCommaDerived ∧ NoRemoteSubquery exCommaDerived ∧
    ∃ sc, collectStmtScopes lower public_ 30 (.select exCommaDerived) = .ok (.ok [sc]) ∧ ¬Linked sc := by
  refine ⟨plain_of _ 20 (by decide +kernel),
    fresh_of _ 20 (by decide +kernel) (by decide +kernel) (by decide +kernel),
    noRemote_of _ 20 (by decide +kernel), .mk "<root>".toList
      [⟨[], [{ table := ['x'], name := "id".toList, type := .reference }]⟩] []
      [⟨[], "tasks".toList, false⟩]
      [.mk "<select0>".toList [⟨[], [{ table := [], name := "id".toList, type := .reference }]⟩] []
        [⟨[], "users".toList, false⟩] []], gives_sound (by decide +kernel), ?_⟩
  intro h
  cases h with
  | mk _ _ _ _ _ _ _ h _ _ =>
    obtain ⟨t, ht, e⟩ := h _ (List.mem_singleton.mpr rfl)
    rw [List.mem_singleton] at ht
    subst ht
    revert e
    decide +kernel

/-- C64, without the restriction on OFFSET: it fails.  A subquery in OFFSET gives a reference to a scope
that does not exist. -/
theorem C64_offset_unlinked : Plain exOffset ∧ Fresh exOffset ∧ SingleFrom exOffset ∧
    ∃ sc, collectStmtScopes lower public_ 30 (.select exOffset) = .ok (.ok [sc]) ∧ ¬Linked sc := by
  refine ⟨plain_of _ 20 (by decide +kernel),
    fresh_of _ 20 (by decide +kernel) (by decide +kernel) (by decide +kernel),
    single_of _ 20 (by decide +kernel), .mk "<root>".toList
      [⟨[], [{ table := [], name := ['a'], type := .reference }]⟩,
       ⟨[], [{ referenceName := "<field0>".toList, table := [], name := [], type := .subquery }]⟩] []
      [⟨[], "users".toList, false⟩] [], gives_sound (by decide +kernel), ?_⟩
  intro h
  cases h with
  | mk _ _ _ _ _ h _ _ _ _ =>
    obtain ⟨t, ht, e⟩ := h _ (List.mem_cons_of_mem _ (List.mem_singleton.mpr rfl)) _ (List.mem_singleton.mpr rfl) rfl
    simp at ht

/-- the hypotheses of `C50_union_crashes` hold: `SELECT a.id, b.id FROM a, b UNION SELECT id FROM t` -/
example : collectStmtScopes lower public_ 100000 (.select (.mk 7 none [] .none (.union exComma
    (.mk 8 none [] .none (.clause [.mk (.name ["id".toList] false) []]
      [.aliased (.tableName [] [] ['t']) [] false] none [] none false []))))) = .error .panic := by
  refine C50_union_crashes 7 _ _ (plain_of _ 20 (by decide +kernel)) (plain_of _ 20 (by decide +kernel))
    (fresh_of _ 20 (by decide +kernel) (by decide +kernel) (by decide +kernel)) 100000 ?_
  decide +kernel

/-- table names are collected from that query -/
example : collectTableNames lower id (.select (.mk 7 none [] .none (.union exComma
    (.mk 8 none [] .none (.clause [.mk (.name ["id".toList] false) []]
      [.aliased (.tableName [] [] ['t']) [] false] none [] none false []))))) =
    .ok (.ok [['a'], ['b'], ['t']]) := by decide +kernel

end Verif.PgScope
