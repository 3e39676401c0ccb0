import Verif.PgScope.Scopes
/-!
# Queries on which the collection of scopes does not return
-/
namespace Verif.PgScope
open Verif.Builder Verif.Fields Verif.Lib Verif.PgScope.Spec

variable {norm : Str → Str} {schema : Str}

/-- a whole select, starting with an empty stack -/
theorem walk_top {fuel : Nat} {s : Select} (hr : AllReady norm schema fuel s)
    (hn : (bregs norm schema s).Nodup) (hs : s.id ∉ bregs norm schema s) (st : St)
    (h1 : st.stack = []) (h2 : st.lastError = none) (h3 : mapGet s.id st.infos = none) :
    ∃ st', runScopes norm schema fuel (walkS s) st = .ok st' ∧ st'.stack = [] ∧ st'.lastError = none ∧
      ∀ id, id ∉ bregs norm schema s → mapGet id st'.infos = mapGet id st.infos := by
  have hready : Ready norm schema fuel s := by cases hr; assumption
  have hnew : newScope s.id st = ({ st with heap := st.heap ++ [{ name := rootName }] } : St) := by
    unfold newScope
    simp [h1, h3]
  obtain ⟨st1, st2, a1, a2, a3, a4⟩ := visit_all hr (newScope s.id st) (.select s.id) st.heap.length
    (by rw [hnew]; exact h2) (by rw [hnew]; simp [nameIn, h3]) (by simp) hn hs
  rw [hnew] at a1 a3 a4
  have e1 : enterSelect norm schema fuel s st = .ok st1 := by
    rw [enterSelect, if_neg (by simp [h3]), hnew]
    exact a1
  have e2 : leave (some (.select s.id)) st2 = .ok { st2 with stack := [] } := by
    simp [leave, a3.stack, h1]
  refine ⟨{ st2 with stack := [] }, ?_, rfl, a3.lastError, a3.infos⟩
  rw [hready.walk, runScopes_append, runScopes_append, runScopes_cons]
  simp only [scopeStep, e1]
  have : runScopes norm schema fuel [] st1 = .ok st1 := rfl
  simp only [this, a2]
  rw [runScopes_cons]
  simp only [scopeStep, e2]
  rfl

theorem leave_empty {st : St} (h : st.stack = []) (fuel : Nat) (r : List Ev) :
    runScopes norm schema fuel (.plain :: r) st = .error .panic := by
  rw [runScopes_cons]
  simp [scopeStep, leave, h]

theorem fresh_below {s x : Select} (hf : Fresh s) (h : Below (.s s) (.s x)) : Fresh x := by
  constructor
  · rw [List.nodup_iff_count]
    intro id
    exact Nat.le_trans (cnt_below selId id h) (List.nodup_iff_count.mp hf.1 id)
  · rw [List.nodup_iff_count]
    intro id
    exact Nat.le_trans (cnt_below subId id h) (List.nodup_iff_count.mp hf.2 id)

/-- entering a select whose body is not a clause only makes a scope -/
theorem enter_other {fuel id : Nat} {orderBy : List Expr} {limit : Limit} {body : Body}
    (hb : ∀ a b c d e f g, body ≠ .clause a b c d e f g) :
    enterSelect norm schema fuel (.mk id none orderBy limit body) {} =
      .ok { heap := [{ name := rootName }] } := by
  rw [enterSelect, if_neg (by simp [mapGet])]
  cases body with
  | clause => exact absurd rfl (hb _ _ _ _ _ _ _)
  | _ => simp only [enterClause]; rfl

/-- C50, without the restriction: it fails.  The collection crashes on every UNION of two plain queries,
whatever is allowed for nested calls beyond the size of the query. -/
theorem C50_union_crashes (id : Nat) (l r : Select) (hl : Plain l) (hr : Plain r)
    (hf : Fresh (.mk id none [] .none (.union l r))) (fuel : Nat)
    (hn : sizeOf l + sizeOf r ≤ fuel) :
    collectStmtScopes norm schema fuel (.select (.mk id none [] .none (.union l r))) = .error .panic := by
  have bl : Below (.s (.mk id none [] .none (.union l r))) (.s l) :=
    below_step (y := .b (.union l r)) (by simp [kids, near]) (below_step (by simp [kids, near]) (below_refl _))
  have br : Below (.s (.mk id none [] .none (.union l r))) (.s r) :=
    below_step (y := .b (.union l r)) (by simp [kids, near]) (below_step (by simp [kids, near]) (below_refl _))
  have fl := fresh_below hf bl
  have fr := fresh_below hf br
  obtain ⟨l1, l2⟩ := bregs_nodup (norm := norm) (schema := schema) fl
  obtain ⟨r1, r2⟩ := bregs_nodup (norm := norm) (schema := schema) fr
  have al := allReady_of (norm := norm) (schema := schema) hl fl (by omega : sizeOf l ≤ fuel) (below_refl _)
  have ar := allReady_of (norm := norm) (schema := schema) hr fr (by omega : sizeOf r ≤ fuel) (below_refl _)
  have hdis : r.id ∉ bregs norm schema l := by
    intro hm
    have h1 := bregs_count (norm := norm) (schema := schema) r.id l
    have h2 := bregs_count (norm := norm) (schema := schema) r.id r
    have h3 : cs r.id (.s (.mk id none [] .none (.union l r))) ≤ 1 := List.nodup_iff_count.mp hf.1 _
    have h4 : cs r.id (.s (.mk id none [] .none (.union l r))) =
        (if selId (.s (.mk id none [] .none (.union l r))) = some r.id then 1 else 0) +
          (cs r.id (.s l) + cs r.id (.s r)) := by
      simp [cs, cnt_eq, kids, near, remote, cntL, selId]
    rw [if_pos rfl] at h2
    have := List.count_pos_iff.mpr hm
    omega
  obtain ⟨st1, a1, a2, a3, a4⟩ := walk_top al l1 l2 { heap := [{ name := rootName }] } rfl rfl rfl
  obtain ⟨st2, b1, b2, -, -⟩ := walk_top ar r1 r2 st1 a2 a3 (by rw [a4 _ hdis]; rfl)
  have hrun : runScopes norm schema fuel (walkS (.mk id none [] .none (.union l r))) {} =
      .error .panic := by
    simp only [walkS, walkWith, walkEs, walkL, walkB, List.append_nil, List.append_assoc]
    rw [List.singleton_append, runScopes_cons]
    simp only [scopeStep]
    rw [enter_other (by intros; simp)]
    simp only [runScopes_append, a1, b1]
    rw [show runScopes norm schema fuel [Ev.plain] st2 = _ from leave_empty b2 fuel []]
  rw [collectStmtScopes, hrun]

/-- The same for a query that is a whole in parentheses. -/
theorem C50_parentheses_crash (id : Nat) (l : Select) (hl : Plain l)
    (hf : Fresh (.mk id none [] .none (.paren l))) (fuel : Nat) (hn : sizeOf l ≤ fuel) :
    collectStmtScopes norm schema fuel (.select (.mk id none [] .none (.paren l))) = .error .panic := by
  have bl : Below (.s (.mk id none [] .none (.paren l))) (.s l) :=
    below_step (y := .b (.paren l)) (by simp [kids, near]) (below_step (by simp [kids, near]) (below_refl _))
  have fl := fresh_below hf bl
  obtain ⟨l1, l2⟩ := bregs_nodup (norm := norm) (schema := schema) fl
  have al := allReady_of (norm := norm) (schema := schema) hl fl hn (below_refl _)
  obtain ⟨st1, a1, a2, a3, a4⟩ := walk_top al l1 l2 { heap := [{ name := rootName }] } rfl rfl rfl
  have hrun : runScopes norm schema fuel (walkS (.mk id none [] .none (.paren l))) {} =
      .error .panic := by
    simp only [walkS, walkWith, walkEs, walkL, walkB, List.append_nil, List.append_assoc]
    rw [List.singleton_append, runScopes_cons]
    simp only [scopeStep]
    rw [enter_other (by intros; simp)]
    simp only [runScopes_append, a1]
    rw [show runScopes norm schema fuel [Ev.plain] st1 = _ from leave_empty a2 fuel []]
  rw [collectStmtScopes, hrun]

theorem collectT_paren (n : Nat) (t : TableExpr) (st : St) :
    collectT norm schema n (.paren t) st = .error .fuel := by
  induction n with
  | zero => rfl
  | succ n ih => rw [collectT]; exact ih

/-- C50, without the restriction: it fails.  For a FROM item in parentheses the nested calls never come
to an end, however many are allowed. -/
theorem C50_paren_diverges (id : Nat) (t : TableExpr) (fuel : Nat) :
    collectStmtScopes norm schema fuel (.select (.mk id none [] .none
      (.clause [.mk .unqualifiedStar []] [.paren t] none [] none false []))) = .error .fuel := by
  have h : enterSelect norm schema fuel (.mk id none [] .none
      (.clause [.mk .unqualifiedStar []] [.paren t] none [] none false [])) {} = .error .fuel := by
    rw [enterSelect, if_neg (by simp [mapGet])]
    simp [enterClause, foundSEs, foundE, collectE, keepField, thenFound, foundTs, collectT_paren, newScope, mapGet]
  rw [collectStmtScopes]
  simp only [walkS]
  rw [List.append_assoc, List.append_assoc, List.append_assoc, List.append_assoc, List.singleton_append,
    runScopes_cons]
  simp only [scopeStep, h]

/-- C50, without the restriction: it fails.  A window frame without an end bound,
`SELECT f(x) OVER (ROWS 1 PRECEDING) FROM …`, crashes. -/
theorem C50_open_frame_crashes (id : Nat) (tables : List TableExpr) (fuel : Nat) :
    collectStmtScopes norm schema fuel (.select (.mk id none [] .none
      (.clause [.mk (.func [.name [['x']] false] .nil (.mk [] [] (.mk (.mk (.leaf true true)) .none)) []) []]
        tables none [] none false []))) = .error .panic := by
  have h : enterSelect norm schema fuel (.mk id none [] .none
      (.clause [.mk (.func [.name [['x']] false] .nil (.mk [] [] (.mk (.mk (.leaf true true)) .none)) []) []]
        tables none [] none false [])) {} = .error .panic := by
    rw [enterSelect, if_neg (by simp [mapGet])]
    simp [enterClause, foundSEs, foundE, collectE, collectArgs, nameRefs, schemaSpecified, collectOver,
      collectEs, collectFrame, collectBound, andThen, nothing, thenFound]
  rw [collectStmtScopes]
  simp only [walkS]
  rw [List.append_assoc, List.append_assoc, List.append_assoc, List.append_assoc, List.singleton_append,
    runScopes_cons]
  simp only [scopeStep, h]

end Verif.PgScope
