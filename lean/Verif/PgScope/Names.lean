import Verif.PgScope.Spec
import Verif.PgScope.Size
import Verif.PgScope.Lin
import Verif.Common
import Mathlib.Tactic.ByContra
/-!
# C65: the tables whose schemas are read are those the query reads
-/
namespace Verif.PgScope
open Verif.Builder Verif.Fields Verif.Lib Verif.PgScope.Spec

/-- the walk of a node -/
def walkNd : Nd → List Ev
  | .e x => walkE x
  | .t x => walkT x
  | .b x => walkB x
  | .s x => walkS x
  | .c x => walkCte x

/-- the calls that matter to the table collector -/
def keepEv : Ev → Bool
  | .plain => false
  | _ => true

/-- the children the walker visits, in its order -/
def wkids : Nd → List Nd
  | .e (.node true kids) => kids.map .e
  | .e (.case subject whens els) =>
    [.e subject, .e els] ++ whens.flatMap fun | .mk c v => [.e c, .e v]
  | .e (.func args filter over _) => overKids over ++ args.map .e ++ [.e filter]
  | .e (.tupleStar x) => [.e x]
  | .e (.columnAccess x _) => [.e x]
  | .e (.subquery _ b) => [.b b]
  | .e _ => []
  | .t (.aliased x _ _) => [.t x]
  | .t (.subquery _ b) => [.b b]
  | .t (.join l r (.on c)) => [.t l, .t r, .e c]
  | .t (.join l r _) => [.t l, .t r]
  | .t (.rowsFrom items) => items.map .e
  | .t _ => []
  | .b (.clause exprs tables where_ groupBy having _ distinctOn) =>
    (exprs.map fun | .mk x _ => .e x) ++ where_.toList.map .e ++ having.toList.map .e ++
      distinctOn.map .e ++ groupBy.map .e ++ tables.map .t
  | .b (.paren s) => [.s s]
  | .b (.union l r) => [.s l, .s r]
  | .b (.values rows) => rows.map .e
  | .s (.mk _ w orderBy limit body) =>
    (w.getD []).map .c ++ orderBy.map .e ++
      (match limit with | .none => [] | .mk count _ => [.e count]) ++ [.b body]
  | .c (.mk _ s) => [.s s]
  | .c (.other _) => []

/-- the calls made before the children -/
def pre : Nd → List Ev
  | .e (.subquery id b) => [.enterSubquery id b]
  | .t (.subquery id b) => [.enterSubquery id b]
  | .t (.aliased x as _) => [.enterAliased x as]
  | .s s => [.enterSelect s]
  | _ => []

/-- the calls made after the children -/
def post : Nd → List Ev
  | .e (.leaf false _) => [.unknown]
  | .e (.node false _) => [.unknown]
  | .e (.allColumns _) => [.unknown]
  | .e (.columnItem _ _) => [.unknown]
  | .e (.subquery id _) => [.leaveSubquery id]
  | .t (.subquery id _) => [.leaveSubquery id]
  | .t (.objectName _) => [.unknown]
  | .t .statementSource => [.unknown]
  | .t .tableRef => [.unknown]
  | .t (.paren _) => [.unknown]
  | .t (.join _ _ .natural) => [.unknown]
  | .t (.join _ _ (.using _)) => [.unknown]
  | .s s => [.leaveSelect s]
  | .c (.other _) => [.unknown]
  | _ => []

theorem walkEs_flat (es : List Expr) : (walkEs es).filter keepEv =
    (es.map Nd.e).flatMap fun y => (walkNd y).filter keepEv := by
  induction es with
  | nil => rfl
  | cons e es ih => simp [walkEs, walkNd, ih]

theorem walkTs_flat (ts : List TableExpr) : (walkTs ts).filter keepEv =
    (ts.map Nd.t).flatMap fun y => (walkNd y).filter keepEv := by
  induction ts with
  | nil => rfl
  | cons e es ih => simp [walkTs, walkNd, ih]

theorem walkWs_flat (ws : List When) : (walkWs ws).filter keepEv =
    (ws.flatMap fun | .mk c v => [Nd.e c, Nd.e v]).flatMap fun y => (walkNd y).filter keepEv := by
  induction ws with
  | nil => rfl
  | cons w ws ih =>
    cases w
    simp only [walkWs, walkW, List.filter_append, ih, List.flatMap_cons, List.flatMap_append,
      walkNd, List.flatMap_nil, List.append_nil]

theorem walkSEs_flat (es : List SelExpr) : (walkSEs es).filter keepEv =
    (es.map fun | .mk x _ => Nd.e x).flatMap fun y => (walkNd y).filter keepEv := by
  induction es with
  | nil => rfl
  | cons w ws ih =>
    cases w
    simp [walkSEs, walkSE, ih, walkNd, keepEv]

theorem walkO_flat (o : Option Expr) : (walkO o).filter keepEv =
    (o.toList.map Nd.e).flatMap fun y => (walkNd y).filter keepEv := by
  cases o <;> simp [walkO, walkNd, keepEv]

theorem walkBound_flat (b : Bound) : (walkBound b).filter keepEv =
    (boundKids b).flatMap fun y => (walkNd y).filter keepEv := by
  cases b <;> simp [walkBound, boundKids, walkNd, keepEv]

theorem walkOver_flat (o : Over) : (walkOver o).filter keepEv =
    (overKids o).flatMap fun y => (walkNd y).filter keepEv := by
  cases o with
  | none => rfl
  | mk ps os f =>
    cases f with
    | none => simp [walkOver, walkFrame, overKids, walkEs_flat, keepEv]
    | mk a z =>
      simp [walkOver, walkFrame, overKids, walkEs_flat, keepEv, walkBound_flat]

theorem walkCtes_flat (cs : List Cte) : (walkCtes cs).filter keepEv =
    (cs.map Nd.c).flatMap fun y => (walkNd y).filter keepEv := by
  induction cs with
  | nil => rfl
  | cons c cs ih => simp [walkCtes, walkNd, ih]

theorem walkWith_flat (w : Option (List Cte)) : (walkWith w).filter keepEv =
    ((w.getD []).map Nd.c).flatMap fun y => (walkNd y).filter keepEv := by
  cases w <;> simp [walkWith, walkCtes_flat, keepEv]

theorem walkL_flat (l : Limit) : (walkL l).filter keepEv =
    (match l with | .none => [] | .mk count _ => [Nd.e count]).flatMap
      fun y => (walkNd y).filter keepEv := by
  cases l <;> simp [walkL, walkNd, keepEv]

theorem walkNd_eq (x : Nd) : (walkNd x).filter keepEv =
    pre x ++ ((wkids x).flatMap fun y => (walkNd y).filter keepEv) ++ post x := by
  cases x with
  | e x =>
    cases x with
    | node known kids => cases known <;> simp [walkNd, walkE, pre, post, wkids, keepEv, walkEs_flat]
    | leaf known ok => cases known <;> simp [walkNd, walkE, pre, post, wkids, keepEv]
    | case subject whens els =>
      simp only [walkNd, walkE, pre, post, wkids, List.filter_append, walkWs_flat,
        List.flatMap_append, List.flatMap_cons, List.flatMap_nil]
      simp [keepEv]
    | func args filter over orderBy =>
      simp [walkNd, walkE, pre, post, wkids, keepEv, walkOver_flat, walkEs_flat]
    | _ => simp [walkNd, walkE, pre, post, wkids, keepEv, List.filter_cons]
  | t x =>
    cases x with
    | join l r c => cases c <;> simp [walkNd, walkT, walkC, pre, post, wkids, keepEv, List.filter_cons]
    | rowsFrom items => simp [walkNd, walkT, pre, post, wkids, keepEv, walkEs_flat]
    | _ => simp [walkNd, walkT, pre, post, wkids, keepEv, List.filter_cons]
  | b x =>
    cases x with
    | clause exprs tables where_ groupBy having window distinctOn =>
      simp only [walkNd, walkB, pre, post, wkids, List.filter_append, walkSEs_flat, walkO_flat,
        walkEs_flat, walkTs_flat, List.flatMap_append, List.nil_append]
      simp [keepEv]
    | _ => simp [walkNd, walkB, pre, post, wkids, keepEv, walkEs_flat]
  | s x =>
    obtain ⟨id, w, orderBy, limit, body⟩ := x
    have hb : walkNd (.b body) = walkB body := rfl
    rw [show walkNd (.s (.mk id w orderBy limit body)) = walkS (.mk id w orderBy limit body) from rfl]
    simp only [walkS, pre, post, wkids, List.filter_append, walkWith_flat, walkL_flat,
      walkEs_flat, List.flatMap_append, ← hb]
    simp [keepEv, List.filter_cons]
  | c x => cases x <;> simp [walkNd, walkCte, pre, post, wkids, keepEv, List.filter_cons]

/-- like `Path`, through the children the walker visits -/
inductive WPath : Nd → List Str → Nd → Prop where
  | refl (x : Nd) : WPath x [] x
  | step (x y z : Nd) (ns : List Str) : y ∈ wkids x → WPath y ns z → WPath x (binds x ++ ns) z

theorem runTables_append (norm : Str → Str) (a b : List Ev) (st : TSt) :
    runTables norm (a ++ b) st = (runTables norm a st).bind (runTables norm b) := by
  simp only [runTables, List.foldlM_append]
  rfl

theorem runTables_keep (norm : Str → Str) (evs : List Ev) (st : TSt) :
    runTables norm evs st = runTables norm (evs.filter keepEv) st := by
  induction evs generalizing st with
  | nil => rfl
  | cons ev evs ih =>
    by_cases h : keepEv ev = true
    · rw [List.filter_cons_of_pos h]
      simp only [runTables, List.foldlM_cons] at ih ⊢
      cases tableStep norm st ev with
      | error f => rfl
      | ok st1 => exact ih st1
    · rw [List.filter_cons_of_neg h]
      cases ev <;> simp [keepEv] at h
      rw [← ih]
      rfl

/-- the table and schema parts are acceptable -/
def GoodSchema (catalog schema : Str) : Prop := (schema = public_ ∨ schema = []) ∧ catalog = []

/-- what a part of the walk adds, given the names bound around it -/
structure Out (norm : Str → Str) (env : List Str) (xs : List Nd) (T : List (Str × Str))
    (E U : List Err) : Prop where
  tabs : ∀ n as, (n, as) ∈ T ↔ ∃ x ∈ xs, ∃ ns c sch l,
    WPath x ns (.t (.aliased (.tableName c sch n) as l)) ∧ GoodSchema c sch ∧ norm n ∉ env ∧
      norm n ∉ ns.map norm
  errs : E = [] ↔ ∀ x ∈ xs, ∀ ns c sch n as l,
    WPath x ns (.t (.aliased (.tableName c sch n) as l)) → GoodSchema c sch
  unk : U = [] ↔ ∀ x ∈ xs, ∀ ns z, WPath x ns z → Ev.unknown ∉ post z

/-- the state after additions -/
def TSt.add (st : TSt) (T : List (Str × Str)) (E U : List Err) : TSt :=
  { st with tables := st.tables ++ T, errors := st.errors ++ E, unknown := st.unknown ++ U }

theorem TSt.add_add (st : TSt) (T T' : List (Str × Str)) (E U E' U' : List Err) :
    (st.add T E U).add T' E' U' = st.add (T ++ T') (E ++ E') (U ++ U') := by
  simp [TSt.add]

theorem TSt.add_nil (st : TSt) : st.add [] [] [] = st := by simp [TSt.add]

theorem Out.nil (norm : Str → Str) (env : List Str) : Out norm env [] [] [] [] where
  tabs := by simp
  errs := by simp
  unk := by simp

theorem Out.append {norm : Str → Str} {env : List Str} {xs ys : List Nd} {T T' : List (Str × Str)}
    {E U E' U' : List Err} (h : Out norm env xs T E U) (h' : Out norm env ys T' E' U') :
    Out norm env (xs ++ ys) (T ++ T') (E ++ E') (U ++ U') where
  tabs := by
    intro n as
    rw [List.mem_append, h.tabs, h'.tabs]
    constructor
    · rintro (⟨x, hx, r⟩ | ⟨x, hx, r⟩)
      · exact ⟨x, by simp [hx], r⟩
      · exact ⟨x, by simp [hx], r⟩
    · rintro ⟨x, hx, r⟩
      rcases List.mem_append.mp hx with hx | hx
      · exact .inl ⟨x, hx, r⟩
      · exact .inr ⟨x, hx, r⟩
  errs := by
    rw [List.append_eq_nil_iff, h.errs, h'.errs]
    constructor
    · rintro ⟨a, b⟩ x hx
      rcases List.mem_append.mp hx with hx | hx
      · exact a x hx
      · exact b x hx
    · intro a
      exact ⟨fun x hx => a x (by simp [hx]), fun x hx => a x (by simp [hx])⟩
  unk := by
    rw [List.append_eq_nil_iff, h.unk, h'.unk]
    constructor
    · rintro ⟨a, b⟩ x hx
      rcases List.mem_append.mp hx with hx | hx
      · exact a x hx
      · exact b x hx
    · intro a
      exact ⟨fun x hx => a x (by simp [hx]), fun x hx => a x (by simp [hx])⟩

theorem isCte_iff (st : TSt) (n : Str) : isCteTable st n = true ↔ n ∈ st.cteTables.flatten := by
  simp [isCteTable]

theorem wpath_iff (x z : Nd) (ns : List Str) :
    WPath x ns z ↔ (z = x ∧ ns = []) ∨ ∃ y ∈ wkids x, ∃ ns', ns = binds x ++ ns' ∧ WPath y ns' z := by
  constructor
  · intro h
    cases h with
    | refl => exact .inl ⟨rfl, rfl⟩
    | step _ y _ ns' hy h => exact .inr ⟨y, hy, ns', rfl, h⟩
  · rintro (⟨rfl, rfl⟩ | ⟨y, hy, ns', rfl, h⟩)
    · exact .refl _
    · exact .step x y z ns' hy h

/-- what the calls around the children add -/
theorem Out.node {norm : Str → Str} {env : List Str} {x : Nd} {T : List (Str × Str)}
    {E U : List Err} (T0 : List (Str × Str)) (E0 U0 : List Err)
    (h : Out norm (env ++ (binds x).map norm) (wkids x) T E U)
    (hT : ∀ n as, (n, as) ∈ T0 ↔ ∃ c sch l, x = .t (.aliased (.tableName c sch n) as l) ∧
      GoodSchema c sch ∧ norm n ∉ env)
    (hE : E0 = [] ↔ ∀ c sch n as l, x = .t (.aliased (.tableName c sch n) as l) → GoodSchema c sch)
    (hU : U0 = [] ↔ Ev.unknown ∉ post x) :
    Out norm env [x] (T0 ++ T) (E0 ++ E) (U ++ U0) where
  tabs := by
    intro n as
    rw [List.mem_append, h.tabs, hT]
    constructor
    · rintro (⟨c, sch, l, rfl, h1, h2⟩ | ⟨y, hy, ns, c, sch, l, h1, h2, h3, h4⟩)
      · exact ⟨_, by simp, [], c, sch, l, .refl _, h1, h2, by simp⟩
      · refine ⟨x, by simp, _, c, sch, l, .step x y _ ns hy h1, h2, ?_, ?_⟩
        · intro h5; exact h3 (by simp [h5])
        · rw [List.map_append, List.mem_append]
          rintro (h5 | h5)
          · exact h3 (List.mem_append.mpr (.inr h5))
          · exact h4 h5
    · rintro ⟨x', hx', ns, c, sch, l, h1, h2, h3, h4⟩
      rw [List.mem_singleton] at hx'
      subst hx'
      rcases (wpath_iff _ _ _).mp h1 with ⟨h5, _⟩ | ⟨y, hy, ns', h5, h6⟩
      · exact .inl ⟨c, sch, l, h5.symm, h2, h3⟩
      · refine .inr ⟨y, hy, ns', c, sch, l, h6, h2, ?_, ?_⟩
        · rw [List.mem_append]
          rintro (h7 | h7)
          · exact h3 h7
          · exact h4 (by rw [h5, List.map_append]; exact List.mem_append.mpr (.inl h7))
        · intro h7
          exact h4 (by rw [h5, List.map_append]; exact List.mem_append.mpr (.inr h7))
  errs := by
    rw [List.append_eq_nil_iff, h.errs, hE]
    constructor
    · rintro ⟨a, b⟩ x' hx' ns c sch n as l h1
      rw [List.mem_singleton] at hx'
      subst hx'
      rcases (wpath_iff _ _ _).mp h1 with ⟨h5, _⟩ | ⟨y, hy, ns', h5, h6⟩
      · exact a _ _ _ _ _ h5.symm
      · exact b y hy _ _ _ _ _ _ h6
    · intro a
      refine ⟨fun c sch n as l e => a x (by simp) [] c sch n as l (by rw [← e]; exact .refl _), ?_⟩
      intro y hy ns c sch n as l h1
      exact a x (by simp) _ c sch n as l (.step x y _ ns hy h1)
  unk := by
    rw [List.append_eq_nil_iff, h.unk, hU]
    constructor
    · rintro ⟨a, b⟩ x' hx' ns z h1
      rw [List.mem_singleton] at hx'
      subst hx'
      rcases (wpath_iff _ _ _).mp h1 with ⟨h5, _⟩ | ⟨y, hy, ns', h5, h6⟩
      · rw [h5]; exact b
      · exact a y hy _ _ h6
    · intro a
      refine ⟨fun y hy ns z h1 => a x (by simp) _ z (.step x y z ns hy h1), ?_⟩
      exact a x (by simp) [] x (.refl x)

theorem wkids_sub (x y : Nd) (h : y ∈ wkids x) : y ∈ near x := by
  cases x with
  | e x =>
    cases x with
    | node known kids => cases known <;> simp_all [wkids, near]
    | _ => exact h
  | t x =>
    cases x with
    | paren => simp [wkids] at h
    | join l r c => cases c <;> exact h
    | _ => exact h
  | b x => cases x <;> exact h
  | s x => obtain ⟨id, w, o, l, b⟩ := x; cases l <;> exact h
  | c x => cases x <;> exact h

theorem wkids_sizeOf (x y : Nd) (h : y ∈ wkids x) : sizeOf y < sizeOf x :=
  kids_sizeOf x y (List.mem_append.mpr (.inl (wkids_sub x y h)))

/-- a list of nodes, given each of them -/
theorem run_list (norm : Str → Str) (ys : List Nd)
    (ih : ∀ y ∈ ys, ∀ st : TSt, ∃ T E U, runTables norm ((walkNd y).filter keepEv) st =
      .ok (st.add T E U) ∧ Out norm st.cteTables.flatten [y] T E U) :
    ∀ st : TSt, ∃ T E U,
      runTables norm (ys.flatMap fun y => (walkNd y).filter keepEv) st = .ok (st.add T E U) ∧
        Out norm st.cteTables.flatten ys T E U := by
  induction ys with
  | nil => intro st; exact ⟨[], [], [], by rw [TSt.add_nil]; rfl, .nil _ _⟩
  | cons y ys ih2 =>
    intro st
    obtain ⟨T, E, U, h1, h2⟩ := ih y (by simp) st
    obtain ⟨T', E', U', h3, h4⟩ := ih2 (fun y hy => ih y (by simp [hy])) (st.add T E U)
    refine ⟨T ++ T', E ++ E', U ++ U', ?_, ?_⟩
    · rw [List.flatMap_cons, runTables_append, h1]
      show runTables norm _ (st.add T E U) = _
      rw [h3, TSt.add_add]
    · exact h2.append h4

theorem pre_run (norm : Str → Str) (x : Nd) (hx : ∀ s, x ≠ .s s) (st : TSt) : ∃ T0 E0,
    runTables norm (pre x) st = .ok (st.add T0 E0 []) ∧
    (∀ n as, (n, as) ∈ T0 ↔ ∃ c sch l, x = .t (.aliased (.tableName c sch n) as l) ∧
      GoodSchema c sch ∧ norm n ∉ st.cteTables.flatten) ∧
    (E0 = [] ↔ ∀ c sch n as l, x = .t (.aliased (.tableName c sch n) as l) →
      GoodSchema c sch) := by
  have trivial_ : pre x = [] ∨ (∃ id b, pre x = [.enterSubquery id b]) ∨
      (∃ y as l, x = .t (.aliased y as l)) := by
    cases x with
    | e x =>
      cases x with
      | subquery id b => exact .inr (.inl ⟨id, b, rfl⟩)
      | _ => exact .inl rfl
    | t x =>
      cases x with
      | subquery id b => exact .inr (.inl ⟨id, b, rfl⟩)
      | aliased y as l => exact .inr (.inr ⟨y, as, l, rfl⟩)
      | _ => exact .inl rfl
    | b x => exact .inl rfl
    | s x => exact absurd rfl (hx x)
    | c x => exact .inl rfl
  rcases trivial_ with h | ⟨id, b, h⟩ | ⟨y, as, l, h⟩
  · refine ⟨[], [], by rw [h, TSt.add_nil]; rfl, ?_, ?_⟩
    · intro n as
      refine ⟨fun h => absurd h (by simp), ?_⟩
      rintro ⟨c, sch, l, rfl, -⟩
      simp [pre] at h
    · refine ⟨?_, fun _ => rfl⟩
      rintro - c sch n as l rfl
      simp [pre] at h
  · refine ⟨[], [], by rw [h, TSt.add_nil]; rfl, ?_, ?_⟩
    · intro n as
      refine ⟨fun h => absurd h (by simp), ?_⟩
      rintro ⟨c, sch, l, rfl, -⟩
      simp [pre] at h
    · refine ⟨?_, fun _ => rfl⟩
      rintro - c sch n as l rfl
      simp [pre] at h
  · subst h
    cases y with
    | tableName c sch n =>
      have hr : runTables norm (pre (.t (.aliased (.tableName c sch n) as l))) st =
          .ok (addTable norm as c sch n st) := rfl
      rw [hr]
      unfold addTable
      by_cases h1 : (sch ≠ public_ ∧ sch ≠ []) ∨ c ≠ []
      · have hb : ¬GoodSchema c sch := by
          rintro ⟨h2, h3⟩
          rcases h1 with ⟨h4, h5⟩ | h4
          · rcases h2 with h2 | h2 <;> contradiction
          · contradiction
        rw [if_pos h1]
        refine ⟨[], [.explicitSchema], by simp [TSt.add], ?_, ?_⟩
        · intro n' as'
          refine ⟨fun h => absurd h (by simp), ?_⟩
          rintro ⟨c', sch', l', h2, h3, -⟩
          cases h2
          exact absurd h3 hb
        · refine ⟨fun h => absurd h (by simp), fun h => absurd (h c sch n as l rfl) hb⟩
      · have hb : GoodSchema c sch := by
          refine ⟨?_, ?_⟩
          · by_contra h2
            exact h1 (.inl ⟨fun h3 => h2 (.inl h3), fun h3 => h2 (.inr h3)⟩)
          · by_contra h2
            exact h1 (.inr h2)
        rw [if_neg h1]
        have hE : (([] : List Err) = [] ↔ ∀ c' sch' n' as' l',
            Nd.t (.aliased (.tableName c sch n) as l) = .t (.aliased (.tableName c' sch' n') as' l') →
              GoodSchema c' sch') := by
          refine ⟨?_, fun _ => rfl⟩
          rintro - c' sch' n' as' l' h2
          cases h2
          exact hb
        by_cases h2 : isCteTable st (norm n) = true
        · rw [if_pos h2]
          refine ⟨[], [], by rw [TSt.add_nil], ?_, hE⟩
          intro n' as'
          refine ⟨fun h => absurd h (by simp), ?_⟩
          rintro ⟨c', sch', l', h3, -, h4⟩
          cases h3
          exact absurd ((isCte_iff _ _).mp h2) h4
        · rw [if_neg h2]
          refine ⟨[(n, as)], [], by simp [TSt.add], ?_, hE⟩
          intro n' as'
          rw [List.mem_singleton]
          constructor
          · intro h3
            cases h3
            exact ⟨c, sch, l, rfl, hb, fun h4 => h2 ((isCte_iff _ _).mpr h4)⟩
          · rintro ⟨c', sch', l', h3, -⟩
            cases h3
            rfl
    | _ =>
      refine ⟨[], [], by rw [TSt.add_nil]; rfl, ?_, ?_⟩
      · intro n as
        refine ⟨fun h => absurd h (by simp), ?_⟩
        rintro ⟨c, sch, l, h, -⟩
        simp at h
      · refine ⟨?_, fun _ => rfl⟩
        rintro - c sch n as l h
        simp at h

theorem post_run (norm : Str → Str) (x : Nd) (hx : ∀ s, x ≠ .s s) (st : TSt) : ∃ U0,
    runTables norm (post x) st = .ok (st.add [] [] U0) ∧ (U0 = [] ↔ Ev.unknown ∉ post x) := by
  have trivial_ : post x = [] ∨ (∃ id, post x = [.leaveSubquery id]) ∨ post x = [.unknown] := by
    cases x with
    | e x =>
      cases x with
      | leaf known ok => cases known <;> simp [post]
      | node known ok => cases known <;> simp [post]
      | _ => simp [post]
    | t x =>
      cases x with
      | join l r c => cases c <;> simp [post]
      | _ => simp [post]
    | b x => simp [post]
    | s x => exact absurd rfl (hx x)
    | c x => cases x <;> simp [post]
  rcases trivial_ with h | ⟨id, h⟩ | h
  · rw [h]; exact ⟨[], by rw [TSt.add_nil]; rfl, by simp⟩
  · rw [h]; exact ⟨[], by rw [TSt.add_nil]; rfl, by simp⟩
  · rw [h]; exact ⟨[.unknownNode], by simp [TSt.add]; rfl, by simp⟩

theorem run_node (norm : Str → Str) (x : Nd) (st : TSt) : ∃ T E U,
    runTables norm ((walkNd x).filter keepEv) st = .ok (st.add T E U) ∧
      Out norm st.cteTables.flatten [x] T E U := by
  have ih : ∀ y ∈ wkids x, ∀ st : TSt, ∃ T E U,
      runTables norm ((walkNd y).filter keepEv) st = .ok (st.add T E U) ∧
        Out norm st.cteTables.flatten [y] T E U := fun y hy st => run_node norm y st
  have hl := run_list norm (wkids x) ih
  rw [walkNd_eq]
  by_cases hx : ∀ s, x ≠ .s s
  · obtain ⟨T0, E0, h1, hT, hE⟩ := pre_run norm x hx st
    obtain ⟨T, E, U, h2, h3⟩ := hl (st.add T0 E0 [])
    obtain ⟨U0, h4, hU⟩ := post_run norm x hx ((st.add T0 E0 []).add T E U)
    have hb : binds x = [] := by
      cases x with
      | s x => exact absurd rfl (hx x)
      | _ => rfl
    refine ⟨T0 ++ T, E0 ++ E, U ++ U0, ?_, Out.node T0 E0 U0 ?_ hT hE hU⟩
    · rw [runTables_append, runTables_append, h1]
      show (runTables norm _ (st.add T0 E0 [])).bind _ = _
      rw [h2]
      show runTables norm _ ((st.add T0 E0 []).add T E U) = _
      rw [h4]
      simp [TSt.add]
    · rw [hb]
      simpa [TSt.add] using h3
  · obtain ⟨s, hs⟩ : ∃ s, x = .s s := by
      by_contra h
      exact hx fun s hs => h ⟨s, hs⟩
    have hT : ∀ n as, (n, as) ∈ ([] : List (Str × Str)) ↔
        ∃ c sch l, x = .t (.aliased (.tableName c sch n) as l) ∧
          GoodSchema c sch ∧ norm n ∉ st.cteTables.flatten := by
      intro n as
      refine ⟨fun h => absurd h (by simp), ?_⟩
      rintro ⟨c, sch, l, h, -⟩
      rw [hs] at h
      cases h
    have hE : (([] : List Err) = [] ↔ ∀ c sch n as l,
        x = .t (.aliased (.tableName c sch n) as l) → GoodSchema c sch) := by
      refine ⟨?_, fun _ => rfl⟩
      rintro - c sch n as l h
      rw [hs] at h
      cases h
    have hU : (([] : List Err) = [] ↔ Ev.unknown ∉ post x) := by
      rw [hs]; simp [post]
    obtain ⟨id, w, orderBy, limit, body⟩ := s
    cases w with
    | none =>
      obtain ⟨T, E, U, h2, h3⟩ := hl st
      refine ⟨[] ++ T, [] ++ E, U ++ [], ?_, Out.node [] [] [] ?_ hT hE hU⟩
      · rw [runTables_append, runTables_append, hs]
        show (runTables norm _ st).bind _ = _
        rw [hs] at h2
        rw [h2]
        show Except.ok (st.add T E U) = _
        simp
      · rw [hs] at h3 ⊢
        simpa [binds] using h3
    | some cs =>
      have hp : runTables norm (pre x) st =
          .ok { st with cteTables := st.cteTables ++ [cs.map fun c => norm c.name] } := by
        rw [hs]; rfl
      obtain ⟨T, E, U, h2, h3⟩ :=
        hl { st with cteTables := st.cteTables ++ [cs.map fun c => norm c.name] }
      refine ⟨[] ++ T, [] ++ E, U ++ [], ?_, Out.node [] [] [] ?_ hT hE hU⟩
      · rw [runTables_append, runTables_append, hp]
        show (runTables norm _ _).bind _ = _
        rw [h2, hs]
        show (popCte (some cs) _).bind _ = _
        simp [popCte, TSt.add]
        rfl
      · rw [hs] at h3 ⊢
        have he : (st.cteTables ++ [cs.map fun c => norm c.name]).flatten =
            st.cteTables.flatten ++ (cs.map Cte.name).map norm := by
          simp [Function.comp_def]
        rw [show binds (Nd.s (.mk id (some cs) orderBy limit body)) = cs.map Cte.name from rfl, ← he]
        exact h3
termination_by sizeOf x
decreasing_by exact wkids_sizeOf x y hy

theorem wpath_path {x z : Nd} {ns : List Str} (h : WPath x ns z) : Path x ns z := by
  induction h with
  | refl x => exact .refl x
  | step x y z ns hy _ ih =>
    exact .step x y z ns (List.mem_append.mpr (.inl (wkids_sub x y hy))) ih

theorem near_wkids (x y : Nd) (hu : Ev.unknown ∉ post x) (h : y ∈ near x) : y ∈ wkids x := by
  cases x with
  | e x =>
    cases x with
    | node known kids =>
      cases known
      · simp [post] at hu
      · exact h
    | _ => exact h
  | t x =>
    cases x with
    | paren => simp [post] at hu
    | join l r c => cases c <;> exact h
    | _ => exact h
  | b x => cases x <;> exact h
  | s x => obtain ⟨id, w, o, l, b⟩ := x; cases l <;> exact h
  | c x => cases x <;> exact h

theorem path_wpath {x z : Nd} {ns : List Str} (h : Path x ns z)
    (hu : ∀ ns z, WPath x ns z → Ev.unknown ∉ post z) :
    WPath x ns z ∨ ∃ a b, Below x a ∧ b ∈ remote a ∧ Below b z := by
  induction h with
  | refl x => exact .inl (.refl x)
  | step x y z ns hy h ih =>
    rcases List.mem_append.mp hy with hn | hr
    · have hw := near_wkids x y (hu _ _ (.refl x)) hn
      rcases ih (fun ns z h => hu _ z (.step x y z ns hw h)) with h1 | ⟨a, b, ⟨ns', h1⟩, h2, h3⟩
      · exact .inl (.step x y z ns hw h1)
      · exact .inr ⟨a, b, ⟨_, .step x y a ns' hy h1⟩, h2, h3⟩
    · exact .inr ⟨x, y, ⟨_, .refl x⟩, hr, ⟨_, h⟩⟩

theorem kids_expr (e : Expr) (y : Nd) (h : y ∈ kids (.e e)) :
    (∃ e', y = .e e') ∨ ∃ id b, e = .subquery id b := by
  have ho : ∀ o : Over, y ∈ overKids o → ∃ e', y = .e e' := by
    intro o h
    cases o with
    | none => simp [overKids] at h
    | mk ps os f =>
      cases f with
      | none => simp [overKids] at h; obtain ⟨a, _, rfl⟩ := h; exact ⟨_, rfl⟩
      | mk a z =>
        simp only [overKids, List.mem_append, List.mem_map] at h
        rcases h with ⟨e, _, rfl⟩ | h | h
        · exact ⟨_, rfl⟩
        · cases a <;> simp [boundKids] at h; exact ⟨_, h⟩
        · cases z <;> simp [boundKids] at h; exact ⟨_, h⟩
  have ho2 : ∀ o : Over, y ∈ overOrder o → ∃ e', y = .e e' := by
    intro o h
    cases o with
    | none => simp [overOrder] at h
    | mk ps os f => simp [overOrder] at h; obtain ⟨a, _, rfl⟩ := h; exact ⟨_, rfl⟩
  cases e with
  | subquery id b => exact .inr ⟨id, b, rfl⟩
  | func args filter over orderBy =>
    left
    simp only [kids, near, remote, List.mem_append, List.mem_map, List.mem_singleton] at h
    rcases h with ((h | ⟨a, _, h⟩) | h) | h | ⟨a, _, h⟩
    · exact ho _ h
    · exact ⟨a, h.symm⟩
    · exact ⟨_, h⟩
    · exact ho2 _ h
    · exact ⟨a, h.symm⟩
  | case subject whens els =>
    left
    simp only [kids, near, remote, List.mem_append, List.mem_cons, List.mem_flatMap,
      List.not_mem_nil, or_false] at h
    rcases h with (h | h) | ⟨⟨c, v⟩, _, h⟩
    · exact ⟨_, h⟩
    · exact ⟨_, h⟩
    · simp at h
      rcases h with h | h <;> exact ⟨_, h⟩
  | node known ks =>
    left
    simp only [kids, near, remote, List.mem_append, List.mem_map, List.not_mem_nil, or_false] at h
    obtain ⟨a, _, h⟩ := h
    exact ⟨a, h.symm⟩
  | tupleStar x => left; simp [kids, near, remote] at h; exact ⟨_, h⟩
  | columnAccess x => left; simp [kids, near, remote] at h; exact ⟨_, h⟩
  | _ => simp [kids, near, remote] at h

theorem expr_subquery {x z : Nd} {ns : List Str} (h : Path x ns z) :
    ∀ e, x = .e e → (∀ e', z ≠ .e e') → ∃ id b, Below x (.e (.subquery id b)) := by
  induction h with
  | refl x => intro e he hz; exact absurd he (hz e)
  | step x y z ns hy h ih =>
    intro e he hz
    subst he
    rcases kids_expr e y hy with ⟨e', he⟩ | ⟨id, b, he⟩
    · obtain ⟨id, b, ns', h1⟩ := ih e' he hz
      exact ⟨id, b, _, .step _ y _ ns' hy h1⟩
    · exact ⟨id, b, [], by rw [he]; exact .refl _⟩

theorem remote_expr (x y : Nd) (h : y ∈ remote x) : ∃ e, y = .e e := by
  cases x with
  | e x =>
    cases x with
    | func args filter over orderBy =>
      simp only [remote, List.mem_append, List.mem_map] at h
      rcases h with h | ⟨a, _, h⟩
      · cases over with
        | none => simp [overOrder] at h
        | mk ps os f => simp [overOrder] at h; obtain ⟨a, _, rfl⟩ := h; exact ⟨_, rfl⟩
      · exact ⟨a, h.symm⟩
    | _ => simp [remote] at h
  | s x =>
    obtain ⟨id, w, o, l, b⟩ := x
    cases l with
    | none => simp [remote] at h
    | mk a z => simp [remote] at h; exact ⟨_, h⟩
  | _ => simp [remote] at h

/-- what the collector computes, in one statement -/
theorem collect_select (norm : Str → Str) (ord : List Str → List Str) (s : Select) : ∃ T E U,
    collectTableNames norm ord (.select s) =
      .ok (if U ≠ [] then .error U else if E ≠ [] then .error E
        else .ok (ord (uniq (T.map fun t => norm t.1)))) ∧ Out norm [] [.s s] T E U := by
  obtain ⟨T, E, U, h1, h2⟩ := run_node norm (.s s) {}
  refine ⟨T, E, U, ?_, h2⟩
  have h3 : runTables norm (walkS s) {} = .ok (TSt.add {} T E U) := by
    rw [runTables_keep]; exact h1
  simp only [collectTableNames, h3]
  simp only [TSt.add, List.nil_append]
  by_cases hU : U = []
  · by_cases hE : E = [] <;> simp [hU, hE]
  · simp [hU]

/-! ## C65 -/

/-- C65: whatever the statement is, `CollectTableNames` returns; and it never fails in any other way than
with errors. -/
theorem C65_total (norm : Str → Str) (ord : List Str → List Str) (stmt : Stmt) :
    ∃ r, collectTableNames norm ord stmt = .ok r := by
  cases stmt with
  | other => exact ⟨_, rfl⟩
  | select s =>
    obtain ⟨T, E, U, h, -⟩ := collect_select norm ord s
    exact ⟨_, h⟩

/-- C65: every name in the list is that of a table the statement reads, and no name is listed twice. -/
theorem C65_names_sound (norm : Str → Str) (ord : List Str → List Str) (hord : AnyOrder ord)
    (s : Select) (names : List Str)
    (h : collectTableNames norm ord (.select s) = .ok (.ok names)) :
    names.Nodup ∧ ∀ n ∈ names, ∃ table, n = norm table ∧ ReadsTable norm s table := by
  obtain ⟨T, E, U, h1, h2⟩ := collect_select norm ord s
  rw [h1] at h
  by_cases hU : U = []
  · by_cases hE : E = []
    · simp [hU, hE] at h
      subst h
      refine ⟨(hord _).nodup_iff.mpr (uniq_nodup _), ?_⟩
      intro n hn
      have hn' := (hord _).mem_iff.mp hn
      rw [mem_uniq] at hn'
      simp only [List.mem_map] at hn'
      obtain ⟨⟨t, as⟩, ht, rfl⟩ := hn'
      obtain ⟨x, hx, ns, c, sch, l, h3, -, -, h4⟩ := (h2.tabs t as).mp ht
      rw [List.mem_singleton] at hx
      subst hx
      exact ⟨t, rfl, ns, c, sch, as, l, wpath_path h3, h4⟩
    · simp [hU, hE] at h
  · simp [hU] at h

/-- C65: when it succeeds and no subquery stands in one of the three places the walker skips, every table
that the statement reads is listed. -/
theorem C65_names_complete_partial (norm : Str → Str) (ord : List Str → List Str)
    (hord : AnyOrder ord) (s : Select) (names : List Str)
    (h : collectTableNames norm ord (.select s) = .ok (.ok names)) (hs : NoRemoteSubquery s)
    (table : Str) (ht : ReadsTable norm s table) : norm table ∈ names := by
  obtain ⟨T, E, U, h1, h2⟩ := collect_select norm ord s
  rw [h1] at h
  by_cases hU : U = []
  · by_cases hE : E = []
    · simp [hU, hE] at h
      subst h
      obtain ⟨ns, c, sch, as, l, h3, h4⟩ := ht
      have hw : WPath (.s s) ns (.t (.aliased (.tableName c sch table) as l)) := by
        rcases path_wpath h3 (h2.unk.mp hU (.s s) (by simp)) with h5 | ⟨a, b, h5, h6, nb, h7⟩
        · exact h5
        · obtain ⟨e, rfl⟩ := remote_expr a b h6
          obtain ⟨id, bd, h8⟩ := expr_subquery h7 e rfl (by intro e' h9; cases h9)
          exact absurd h8 (hs a _ id bd h5 h6)
      rw [(hord _).mem_iff, mem_uniq]
      refine List.mem_map.mpr ⟨(table, as), ?_, rfl⟩
      refine (h2.tabs table as).mpr ⟨.s s, by simp, ns, c, sch, l, hw, ?_, by simp, h4⟩
      exact h2.errs.mp hE (.s s) (by simp) ns c sch table as l hw
    · simp [hU, hE] at h
  · simp [hU] at h

/-- C65: a table written with another schema than `public`, or with a database name, is never silently
taken for a table of `public`: the statement is refused. -/
theorem C65_no_schema (norm : Str → Str) (ord : List Str → List Str)
    (s : Select) (names : List Str)
    (h : collectTableNames norm ord (.select s) = .ok (.ok names)) (hs : NoRemoteSubquery s)
    (catalog schema table as : Str) (lateral : Bool)
    (ht : Below (.s s) (.t (.aliased (.tableName catalog schema table) as lateral))) :
    catalog = [] ∧ (schema = [] ∨ schema = "public".toList) := by
  obtain ⟨T, E, U, h1, h2⟩ := collect_select norm ord s
  rw [h1] at h
  by_cases hU : U = []
  · by_cases hE : E = []
    · obtain ⟨ns, h3⟩ := ht
      have hw : WPath (.s s) ns (.t (.aliased (.tableName catalog schema table) as lateral)) := by
        rcases path_wpath h3 (h2.unk.mp hU (.s s) (by simp)) with h5 | ⟨a, b, h5, h6, nb, h7⟩
        · exact h5
        · obtain ⟨e, rfl⟩ := remote_expr a b h6
          obtain ⟨id, bd, h8⟩ := expr_subquery h7 e rfl (by intro e' h9; cases h9)
          exact absurd h8 (hs a _ id bd h5 h6)
      obtain ⟨h4, h5⟩ := h2.errs.mp hE (.s s) (by simp) ns catalog schema table as lateral hw
      refine ⟨h5, ?_⟩
      rcases h4 with h4 | h4
      · right; rw [h4]; unfold public_; rfl
      · exact .inl h4
    · simp [hU, hE] at h
  · simp [hU] at h

theorem post_refused (x : Nd) : Ev.unknown ∈ post x ↔ Refused x := by
  constructor
  · intro h
    cases x with
    | e x =>
      cases x with
      | leaf known ok => cases known <;> simp [post] at h; exact .leaf ok
      | node known ok => cases known <;> simp [post] at h; exact .node ok
      | allColumns => exact .allColumns _
      | columnItem => exact .columnItem _ _
      | _ => simp [post] at h
    | t x =>
      cases x with
      | objectName => exact .objectName _
      | statementSource => exact .statementSource
      | tableRef => exact .tableRef
      | paren => exact .paren _
      | join l r c =>
        cases c <;> simp [post] at h
        · exact .natural l r
        · exact .using l r _
      | _ => simp [post] at h
    | b x => simp [post] at h
    | s x => simp [post] at h
    | c x => cases x <;> simp [post] at h; exact .cte _
  · intro h
    cases h <;> simp [post]

/-- C65: a statement is accepted when it contains no refused node and no table of another schema. -/
theorem C65_accepts (norm : Str → Str) (ord : List Str → List Str) (s : Select)
    (hr : ∀ z, Below (.s s) z → ¬Refused z)
    (hs : ∀ catalog schema table as lateral,
      Below (.s s) (.t (.aliased (.tableName catalog schema table) as lateral)) →
        catalog = [] ∧ (schema = [] ∨ schema = "public".toList)) :
    ∃ names, collectTableNames norm ord (.select s) = .ok (.ok names) := by
  obtain ⟨T, E, U, h1, h2⟩ := collect_select norm ord s
  have hU : U = [] := by
    refine h2.unk.mpr ?_
    intro x hx ns z h3 h4
    rw [List.mem_singleton] at hx
    subst hx
    exact hr z ⟨ns, wpath_path h3⟩ ((post_refused z).mp h4)
  have hE : E = [] := by
    refine h2.errs.mpr ?_
    intro x hx ns c sch n as l h3
    rw [List.mem_singleton] at hx
    subst hx
    obtain ⟨h4, h5⟩ := hs c sch n as l ⟨ns, wpath_path h3⟩
    refine ⟨?_, h4⟩
    rcases h5 with h5 | h5
    · exact .inr h5
    · left; rw [h5]; unfold public_; rfl
  rw [h1]
  exact ⟨_, by simp [hU, hE]; rfl⟩

/-- C65: and refused when it contains a refused node, unless only below an OFFSET, the ORDER BY of a
function or the ORDER BY of a window. -/
theorem C65_refuses (norm : Str → Str) (ord : List Str → List Str) (s : Select) (z : Nd)
    (hz : Below (.s s) z) (hr : Refused z)
    (hn : ∀ x y, Below (.s s) x → y ∈ remote x → ¬Below y z) :
    ∃ es, es ≠ [] ∧ collectTableNames norm ord (.select s) = .ok (.error es) := by
  obtain ⟨T, E, U, h1, h2⟩ := collect_select norm ord s
  have hU : U ≠ [] := by
    intro hU
    obtain ⟨ns, h3⟩ := hz
    rcases path_wpath h3 (h2.unk.mp hU (.s s) (by simp)) with h5 | ⟨a, b, h5, h6, h7⟩
    · exact h2.unk.mp hU (.s s) (by simp) ns z h5 ((post_refused z).mpr hr)
    · exact hn a b h5 h6 h7
  refine ⟨U, hU, ?_⟩
  rw [h1]
  simp [hU]

/-! ### Non-vacuity and the counterexample -/

/-- lower case, in place of `tree.Name.Normalize` -/
def lower (n : Str) : Str := n.map Char.toLower

/-- `WITH w AS (SELECT a FROM Tags) SELECT u.a FROM Users u JOIN public.posts ON TRUE
WHERE EXISTS (SELECT a FROM w) OR EXISTS (SELECT a FROM users)` -/
def exNames : Select :=
  .mk 0 (some [.mk ['w'] (.mk 1 none [] .none
      (.clause [.mk (.name [['a']] false) []] [.aliased (.tableName [] [] "Tags".toList) [] false]
        none [] none false []))]) [] .none
    (.clause [.mk (.name [['a'], ['u']] false) []]
      [.join (.aliased (.tableName [] [] "Users".toList) ['u'] false)
        (.aliased (.tableName [] "public".toList "posts".toList) [] false) (.on (.leaf true true))]
      (some (.node true [.subquery 2 (.paren (.mk 3 none [] .none
          (.clause [.mk (.name [['a']] false) []] [.aliased (.tableName [] [] ['w']) [] false]
            none [] none false []))),
        .subquery 4 (.paren (.mk 5 none [] .none
          (.clause [.mk (.name [['a']] false) []] [.aliased (.tableName [] [] "users".toList) [] false]
            none [] none false [])))]))
      [] none false [])

example : collectTableNames lower id (.select exNames) =
    .ok (.ok ["tags".toList, "users".toList, "posts".toList]) := by
  decide +kernel

/-- checks every node, to a depth -/
def allNd (P : Nd → Bool) : Nat → Nd → Bool
  | 0, _ => false
  | n + 1, x => P x && (kids x).all (allNd P n)

theorem allNd_below (P : Nd → Bool) {x z : Nd} {ns : List Str} (h : Path x ns z) :
    ∀ n, allNd P n x = true → P z = true := by
  induction h with
  | refl x =>
    intro n hn
    cases n with
    | zero => simp [allNd] at hn
    | succ n => simp [allNd] at hn; exact hn.1
  | step x y z ns hy _ ih =>
    intro n hn
    cases n with
    | zero => simp [allNd] at hn
    | succ n => simp [allNd] at hn; exact ih n (hn.2 y hy)

/-- not a subquery expression -/
def notSubquery : Nd → Bool
  | .e (.subquery _ _) => false
  | _ => true

theorem noRemote_of (s : Select) (n : Nat)
    (h : allNd (fun x => (remote x).all (allNd notSubquery n)) n (.s s) = true) :
    NoRemoteSubquery s := by
  intro x y id b ⟨_, h1⟩ h2 ⟨_, h3⟩
  have h4 := allNd_below _ h1 n h
  have h5 := List.all_eq_true.mp h4 y h2
  have h6 := allNd_below _ h3 n h5
  simp [notSubquery] at h6

example : NoRemoteSubquery exNames := noRemote_of _ 20 (by decide +kernel)

/-- `users` is read by the inner subquery of `exNames`. -/
example : ReadsTable lower exNames "posts".toList ∧ ¬Refused (.s exNames) := by
  refine ⟨⟨[['w']], [], "public".toList, [], false, ?_, by decide +kernel⟩, by rintro ⟨⟩⟩
  have step : ∀ {x y z : Nd}, binds x = [] → y ∈ kids x → Path y [] z → Path x [] z := by
    intro x y z hb hy h
    have := Path.step x y z [] hy h
    rwa [hb] at this
  refine Path.step (.s exNames) (.b _) _ []
    (List.mem_append_left _ (by simp [near, exNames]; rfl)) ?_
  refine step rfl (y := .t (.join _ _ (.on (.leaf true true))))
    (List.mem_append_left _ (by simp [near]; exact ⟨rfl, rfl⟩)) ?_
  refine step rfl (y := .t (.aliased (.tableName [] "public".toList _) _ _))
    (List.mem_append_left _ (by simp [near]; exact ⟨rfl, rfl, rfl⟩)) ?_
  exact .refl _

/-- the hypotheses of `C65_accepts` hold of `exNames` -/
example : ∃ names, collectTableNames lower id (.select exNames) = .ok (.ok names) := by
  let P : Nd → Bool := fun x => match x with
    | .e (.leaf false _) => false
    | .e (.node false _) => false
    | .e (.allColumns _) => false
    | .e (.columnItem _ _) => false
    | .t (.aliased (.tableName c sch _) _ _) =>
      c = [] && (sch = [] || sch = "public".toList)
    | .t (.objectName _) => false
    | .t .statementSource => false
    | .t .tableRef => false
    | .t (.paren _) => false
    | .t (.join _ _ .natural) => false
    | .t (.join _ _ (.using _)) => false
    | .c (.other _) => false
    | _ => true
  have hP : allNd P 20 (.s exNames) = true := by decide +kernel
  refine C65_accepts lower id exNames ?_ ?_
  · rintro z ⟨ns, h1⟩ h2
    have h3 := allNd_below P h1 20 hP
    cases h2 <;> simp [P] at h3
  · rintro c sch t as l ⟨ns, h1⟩
    have h3 := allNd_below P h1 20 hP
    simpa [P] using h3

/-- `SELECT a FROM users JOIN posts USING (a)` is refused. -/
example : collectTableNames lower id (.select (.mk 0 none [] .none
    (.clause [.mk (.name [['a']] false) []]
      [.join (.aliased (.tableName [] [] "users".toList) [] false)
        (.aliased (.tableName [] [] "posts".toList) [] false) (.using [['a']])]
      none [] none false []))) = .ok (.error [.unknownNode]) := by decide +kernel

/-- a CTE named like a table hides the table inside its own definition too:
`WITH users AS (SELECT a FROM users) SELECT a FROM users` lists nothing -/
example : collectTableNames lower id (.select (.mk 0
    (some [.mk "users".toList (.mk 1 none [] .none (.clause [.mk (.name [['a']] false) []]
      [.aliased (.tableName [] [] "users".toList) [] false] none [] none false []))]) [] .none
    (.clause [.mk (.name [['a']] false) []] [.aliased (.tableName [] [] "users".toList) [] false]
      none [] none false []))) = .ok (.ok []) := by decide +kernel

/-- `SELECT a FROM users OFFSET (SELECT a FROM posts)` -/
def exOffset : Select :=
  .mk 0 none [] (.mk .nil (.subquery 1 (.paren (.mk 2 none [] .none
      (.clause [.mk (.name [['a']] false) []] [.aliased (.tableName [] [] "posts".toList) [] false]
        none [] none false [])))))
    (.clause [.mk (.name [['a']] false) []] [.aliased (.tableName [] [] "users".toList) [] false]
      none [] none false [])

/-- C65, without the restriction: it fails.  The table of a subquery in OFFSET is read but not listed,
although the collector reports success. -/
theorem C65_names_incomplete : ReadsTable lower exOffset "posts".toList ∧
    collectTableNames lower id (.select exOffset) = .ok (.ok ["users".toList]) := by
  constructor
  · refine ⟨[], [], [], [], false, ?_, by simp⟩
    have step : ∀ {x y z : Nd}, binds x = [] → y ∈ kids x → Path y [] z → Path x [] z := by
      intro x y z hb hy h
      have := Path.step x y z [] hy h
      rwa [hb] at this
    refine step rfl (y := .e (.subquery 1 _)) (List.mem_append_right _ (by simp [remote, exOffset]; rfl)) ?_
    refine step rfl (y := .b _) (List.mem_append_left _ (by simp [near]; rfl)) ?_
    refine step rfl (y := .s _) (List.mem_append_left _ (by simp [near]; rfl)) ?_
    refine step rfl (y := .b _) (List.mem_append_left _ (by simp [near]; rfl)) ?_
    refine step rfl (y := .t _) (List.mem_append_left _ (by simp [near]; rfl)) ?_
    exact .refl _
  · decide +kernel

end Verif.PgScope
