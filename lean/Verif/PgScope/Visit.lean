import Verif.PgScope.Heap
import Mathlib.Tactic.ByContra
/-!
# The scopes collected (helper definitions and lemmas)
-/
namespace Verif.PgScope
open Verif.Builder Verif.Fields Verif.Lib Verif.PgScope.Spec

/-! ## The result of the collection, without state -/

/-- The scope of a select; `ν` are the names given to selects. -/
def den (norm : Str → Str) (schema : Str) (ν : Nat → Str) (s : Select) : Scope :=
  foldS (fun s rs => .mk (ν s.id)
    (((partsS norm schema s).flatMap (Part.fields ν)).filter (·.columns ≠ []))
    (rs.filterMap fun r => if r.1 then none else some r.2.2.2)
    (ptabs norm ν (partsS norm schema s) [])
    (rs.filterMap fun r => if r.1 then some r.2.2.2 else none)) s

/-- the errors recorded -/
def errsS (norm : Str → Str) (schema : Str) (s : Select) : List Err :=
  foldS (fun s rs => (partsS norm schema s).flatMap Part.errs ++ rs.flatMap (·.2.2.2)) s

/-- the selects registered -/
def bregs (norm : Str → Str) (schema : Str) (s : Select) : List Nat :=
  foldS (fun s rs => pregs (partsS norm schema s) ++ rs.flatMap (·.2.2.2)) s

/-- the subqueries in expressions of a list of visited subqueries -/
def fieldDens (norm : Str → Str) (schema : Str) (ν : Nat → Str) (xs : List (Bool × Nat × Select)) :
    List Scope :=
  xs.filterMap fun x => if x.1 then none else some (den norm schema ν x.2.2)

/-- the derived tables of a list of visited subqueries -/
def subDens (norm : Str → Str) (schema : Str) (ν : Nat → Str) (xs : List (Bool × Nat × Select)) :
    List Scope :=
  xs.filterMap fun x => if x.1 then some (den norm schema ν x.2.2) else none

theorem den_eq (norm : Str → Str) (schema : Str) (ν : Nat → Str) (s : Select) :
    den norm schema ν s = .mk (ν s.id)
      (((partsS norm schema s).flatMap (Part.fields ν)).filter (·.columns ≠ []))
      (fieldDens norm schema ν (wsubs s))
      (ptabs norm ν (partsS norm schema s) [])
      (subDens norm schema ν (wsubs s)) := by
  unfold den fieldDens subDens
  rw [foldS_eq]
  simp only [List.filterMap_map]
  rfl

theorem errsS_eq (norm : Str → Str) (schema : Str) (s : Select) :
    errsS norm schema s = (partsS norm schema s).flatMap Part.errs ++
      (wsubs s).flatMap fun x => errsS norm schema x.2.2 := by
  unfold errsS
  rw [foldS_eq]
  simp only [List.flatMap_map]

theorem bregs_eq (norm : Str → Str) (schema : Str) (s : Select) :
    bregs norm schema s = pregs (partsS norm schema s) ++
      (wsubs s).flatMap fun x => bregs norm schema x.2.2 := by
  unfold bregs
  rw [foldS_eq]
  simp only [List.flatMap_map]

/-- the unknown nodes reported by a list of calls -/
def unkOf (evs : List Ev) : List Err :=
  evs.filterMap fun | .unknown => some .unknownNode | _ => none

/-- What is needed of a single select. -/
structure Ready (norm : Str → Str) (schema : Str) (fuel : Nat) (s : Select) : Prop where
  clause : ∃ id orderBy limit exprs tables where_ groupBy having window distinctOn,
    s = .mk id none orderBy limit (.clause exprs tables where_ groupBy having window distinctOn) ∧
    (∀ t ∈ tables, noParen t = true) ∧ (∀ t ∈ tables, sizeOf t ≤ fuel)
  ok : ∀ i ∈ partsS norm schema s, i.Ok
  bodies : ∀ d i b, .sub d i b ∈ witemsS s → ∃ x, b = .paren x
  regF : ∀ i x, (false, i, x) ∈ wsubs s → x.id ∈ (partsS norm schema s).flatMap Part.regsF
  regS : ∀ i x, (true, i, x) ∈ wsubs s → x.id ∈ (partsS norm schema s).flatMap Part.regsS
  sep : ∀ i x i' x', (false, i, x) ∈ wsubs s → (true, i', x') ∈ wsubs x → i' ≠ i

/-- every select visited is ready -/
inductive AllReady (norm : Str → Str) (schema : Str) (fuel : Nat) : Select → Prop where
  | mk (s : Select) : Ready norm schema fuel s →
      (∀ x ∈ wsubs s, AllReady norm schema fuel x.2.2) → AllReady norm schema fuel s

theorem mem_pregs (parts : List Part) (id : Nat) : id ∈ pregs parts ↔
    id ∈ parts.flatMap Part.regsF ∨ id ∈ parts.flatMap Part.regsS := by
  simp only [pregs, List.mem_flatMap, List.mem_append]
  constructor
  · rintro ⟨x, hx, h | h⟩
    · exact .inl ⟨x, hx, h⟩
    · exact .inr ⟨x, hx, h⟩
  · rintro (⟨x, hx, h⟩ | ⟨x, hx, h⟩)
    · exact ⟨x, hx, .inl h⟩
    · exact ⟨x, hx, .inr h⟩

theorem flatMap_append_perm' {α β : Type} (l : List α) (f g : α → List β) :
    (l.flatMap f ++ l.flatMap g).Perm (l.flatMap fun x => f x ++ g x) := by
  induction l with
  | nil => exact List.Perm.refl _
  | cons x r ih =>
    simp only [List.flatMap_cons]
    have h1 : (f x ++ r.flatMap f ++ (g x ++ r.flatMap g)).Perm
        (f x ++ g x ++ (r.flatMap f ++ r.flatMap g)) := by
      simp only [List.append_assoc]
      refine List.Perm.append_left _ ?_
      rw [← List.append_assoc, ← List.append_assoc]
      exact List.Perm.append_right _ List.perm_append_comm
    exact h1.trans (List.Perm.append_left _ ih)

theorem pregs_nodup (parts : List Part) (h : (pregs parts).Nodup) :
    (∀ i ∈ parts, i.Nodup) ∧ parts.Pairwise fun i j => ∀ id,
      id ∈ i.regsF ++ i.regsS → id ∉ j.regsF ++ j.regsS := by
  unfold pregs at h
  induction parts with
  | nil => simp
  | cons i r ih =>
    rw [List.flatMap_cons, List.nodup_append] at h
    obtain ⟨h1, h2, h3⟩ := h
    obtain ⟨ih1, ih2⟩ := ih h2
    constructor
    · intro j hj
      rcases List.mem_cons.mp hj with rfl | hj
      · cases j with
        | expr as items =>
          show (cregs items).Nodup
          simpa [Part.regsF, Part.regsS] using h1
        | table items =>
          exact ((flatMap_append_perm' items TItem.regsF TItem.regsS).nodup_iff).mp h1
        | window => trivial
      · exact ih1 j hj
    · rw [List.pairwise_cons]
      refine ⟨?_, ih2⟩
      intro j hj id hid hid'
      exact h3 id hid id (List.mem_flatMap.mpr ⟨j, hj, hid'⟩) rfl

theorem filterMap_congr' {α β : Type} {l : List α} {f g : α → Option β} (h : ∀ x ∈ l, f x = g x) :
    l.filterMap f = l.filterMap g := by
  induction l with
  | nil => rfl
  | cons x r ih =>
    rw [List.filterMap_cons, List.filterMap_cons, h x (by simp), ih fun x hx => h x (by simp [hx])]

theorem den_congr (norm : Str → Str) (schema : Str) (fuel : Nat) (ν ν' : Nat → Str) (s : Select)
    (hr : AllReady norm schema fuel s) (h0 : ν s.id = ν' s.id)
    (h : ∀ id ∈ bregs norm schema s, ν id = ν' id) : den norm schema ν s = den norm schema ν' s := by
  induction hr with
  | mk s hr hs ih =>
    rw [bregs_eq] at h
    have hp : ∀ id ∈ pregs (partsS norm schema s), ν id = ν' id :=
      fun id hid => h id (List.mem_append_left _ hid)
    have hx : ∀ x ∈ wsubs s, den norm schema ν x.2.2 = den norm schema ν' x.2.2 := by
      intro x hx
      refine ih x hx ?_ ?_
      · apply hp
        rw [mem_pregs]
        obtain ⟨d, i, x⟩ := x
        cases d
        · exact .inl (hr.regF i x hx)
        · exact .inr (hr.regS i x hx)
      · intro id hid
        exact h id (List.mem_append_right _ (List.mem_flatMap.mpr ⟨x, hx, hid⟩))
    rw [den_eq, den_eq, h0, pfields_congr ν ν' _ hp, ptabs_congr norm ν ν' _ _ hp]
    have e1 : fieldDens norm schema ν (wsubs s) = fieldDens norm schema ν' (wsubs s) :=
      filterMap_congr' fun x hxs => by rw [hx x hxs]
    have e2 : subDens norm schema ν (wsubs s) = subDens norm schema ν' (wsubs s) :=
      filterMap_congr' fun x hxs => by rw [hx x hxs]
    rw [e1, e2]

/-! ## The walk -/

/-- What a piece of the walk inside the scope at `p` does. -/
structure Grow (p : Nat) (ids : List Nat) (U E : List Err) (fs ss : List Scope) (st st' : St) : Prop where
  stack : st'.stack = st.stack
  scopes : st'.scopes = st.scopes
  lastError : st'.lastError = none
  errors : st'.errors = st.errors ++ E
  unknown : st'.unknown = st.unknown ++ U
  infos : ∀ id, id ∉ ids → mapGet id st'.infos = mapGet id st.infos
  reg : ∀ id ∈ ids, mapGet id st'.infos ≠ none
  inv : Inv st → Inv st'
  len : st.heap.length ≤ st'.heap.length
  other : ∀ q, q < st.heap.length → q ≠ p → st'.heap[q]? = st.heap[q]?
  own : ∃ fps sps, (∀ c, st.heap[p]? = some c → st'.heap[p]? = some
      { c with fieldScopes := c.fieldScopes ++ fps, subScopes := c.subScopes ++ sps }) ∧
    ReadsL st'.heap st.heap.length st'.heap.length fs fps ∧
    ReadsL st'.heap st.heap.length st'.heap.length ss sps

theorem Grow.trans {p : Nat} {ids ids' : List Nat} {U U' E E' : List Err} {fs fs' ss ss' : List Scope}
    {st st1 st2 : St} (hp : p < st.heap.length) (h : Grow p ids U E fs ss st st1)
    (h' : Grow p ids' U' E' fs' ss' st1 st2) :
    Grow p (ids ++ ids') (U ++ U') (E ++ E') (fs ++ fs') (ss ++ ss') st st2 where
  stack := h'.stack.trans h.stack
  scopes := h'.scopes.trans h.scopes
  lastError := h'.lastError
  errors := by rw [h'.errors, h.errors, List.append_assoc]
  unknown := by rw [h'.unknown, h.unknown, List.append_assoc]
  infos := by
    intro id hid
    rw [List.mem_append, not_or] at hid
    rw [h'.infos id hid.2, h.infos id hid.1]
  reg := by
    intro id hid
    by_cases h1 : id ∈ ids'
    · exact h'.reg id h1
    · rw [h'.infos id h1]
      rcases List.mem_append.mp hid with h2 | h2
      · exact h.reg id h2
      · exact absurd h2 h1
  inv := fun hi => h'.inv (h.inv hi)
  len := Nat.le_trans h.len h'.len
  other := by
    intro q h1 h2
    rw [h'.other q (Nat.lt_of_lt_of_le h1 h.len) h2, h.other q h1 h2]
  own := by
    obtain ⟨fps, sps, a1, a2, a3⟩ := h.own
    obtain ⟨fps', sps', b1, b2, b3⟩ := h'.own
    have hl := h.len
    have hl' := h'.len
    have key : ∀ q, st.heap.length ≤ q → q < st1.heap.length → st2.heap[q]? = st1.heap[q]? := by
      intro q h1 h2
      exact h'.other q h2 (by omega)
    refine ⟨fps ++ fps', sps ++ sps', ?_, ?_, ?_⟩
    · intro c hc
      rw [b1 _ (a1 c hc)]
      simp
    · exact ReadsL.append _ _ _ _ (ReadsL.mono key (Nat.le_refl _) hl' _ _ a2)
        (ReadsL.mono (fun _ _ _ => rfl) hl (Nat.le_refl _) _ _ b2)
    · exact ReadsL.append _ _ _ _ (ReadsL.mono key (Nat.le_refl _) hl' _ _ a3)
        (ReadsL.mono (fun _ _ _ => rfl) hl (Nat.le_refl _) _ _ b3)

/-- nothing happens to scopes -/
theorem Grow.same (p : Nat) {st st' : St} {U : List Err} (h0 : st.lastError = none)
    (h1 : st'.stack = st.stack) (h2 : st'.scopes = st.scopes) (h3 : st'.unknown = st.unknown ++ U)
    (h4 : st'.infos = st.infos) (h5 : st'.counterF = st.counterF) (h6 : st'.counterS = st.counterS)
    (h7 : st'.heap = st.heap) (h8 : st'.errors = st.errors) (h9 : st'.lastError = st.lastError) :
    Grow p [] U [] [] [] st st' where
  stack := h1
  scopes := h2
  lastError := by rw [h9, h0]
  errors := by rw [h8]; simp
  unknown := h3
  infos := by intros; rw [h4]
  reg := by simp
  inv := fun h => h.congr h4 h5 h6
  len := by rw [h7]; exact Nat.le_refl _
  other := by intros; rw [h7]
  own := by
    refine ⟨[], [], ?_, by simp [ReadsL], by simp [ReadsL]⟩
    intro c hc
    rw [h7, hc]
    simp

/-- What entering a clause and walking through it does. -/
structure Done (norm : Str → Str) (schema : Str) (node : Node) (p : Nat) (s : Select) (st st' : St) :
    Prop where
  stack : st'.stack = (node, p) :: st.stack
  scopes : st'.scopes = if st.scopes = [] then [p] else st.scopes
  lastError : st'.lastError = none
  errors : st'.errors = st.errors ++ errsS norm schema s
  unknown : st'.unknown = st.unknown ++ unkOf ((witemsS s).flatMap WItem.evs)
  infos : ∀ id, id ∉ bregs norm schema s → mapGet id st'.infos = mapGet id st.infos
  reg : ∀ id ∈ bregs norm schema s, mapGet id st'.infos ≠ none
  inv : Inv st → Inv st'
  len : st.heap.length ≤ st'.heap.length
  other : ∀ q, q < st.heap.length → q ≠ p → st'.heap[q]? = st.heap[q]?
  own : Reads st'.heap p st'.heap.length (den norm schema (nameIn st'.infos) s) p

/-- `Done` holds for every context -/
def Visit (norm : Str → Str) (schema : Str) (fuel : Nat) (s : Select) : Prop :=
  ∀ (st : St) (node : Node) (p : Nat), st.lastError = none →
    st.heap[p]? = some { name := nameIn st.infos s.id } →
    (∀ i x, (true, i, x) ∈ wsubs s → node ≠ .subquery i) →
    (bregs norm schema s).Nodup → s.id ∉ bregs norm schema s →
    ∃ st1 st2, enterClause norm schema fuel node p s st = .ok st1 ∧
      runScopes norm schema fuel ((witemsS s).flatMap WItem.evs) st1 = .ok st2 ∧
      Done norm schema node p s st st2 ∧
      (∀ id, id ∉ bregs norm schema s → mapGet id st1.infos = mapGet id st.infos)

theorem runScopes_append (norm : Str → Str) (schema : Str) (fuel : Nat) (a b : List Ev) (st : St) :
    runScopes norm schema fuel (a ++ b) st =
      match runScopes norm schema fuel a st with
      | .error f => .error f
      | .ok st' => runScopes norm schema fuel b st' := by
  unfold runScopes
  rw [List.foldlM_append]
  rcases List.foldlM (scopeStep norm schema fuel) st a with f | st' <;> rfl

theorem runScopes_cons (norm : Str → Str) (schema : Str) (fuel : Nat) (a : Ev) (b : List Ev) (st : St) :
    runScopes norm schema fuel (a :: b) st =
      match scopeStep norm schema fuel st a with
      | .error f => .error f
      | .ok st' => runScopes norm schema fuel b st' := by
  unfold runScopes
  rw [List.foldlM_cons]
  rcases scopeStep norm schema fuel st a with f | st' <;> rfl

/-- calls that do nothing to scopes -/
def quiet : Ev → Prop
  | .plain => True
  | .unknown => True
  | .enterAliased _ _ => True
  | _ => False

/-- see `quiet` -/
def WItem.quiet : WItem → Prop
  | .noise ev => PgScope.quiet ev
  | .sub _ _ _ => True

mutual

theorem quietE : ∀ (e : Expr), ∀ w ∈ witemsE e, w.quiet
  | .nil, w, h => by simp [witemsE] at h; subst h; trivial
  | .leaf known ok, w, h => by cases known <;> simp [witemsE] at h <;> subst h <;> trivial
  | .node known kids, w, h => by
    cases known
    · simp [witemsE] at h; subst h; trivial
    · simp [witemsE] at h
      rcases h with h | rfl
      · exact quietEs kids w h
      · trivial
  | .case subject whens els, w, h => by
    simp [witemsE] at h
    rcases h with h | h | h | rfl
    · exact quietE subject w h
    · exact quietE els w h
    · exact quietWs whens w h
    · trivial
  | .func args filter over _, w, h => by
    simp [witemsE] at h
    rcases h with h | h | h | rfl
    · exact quietOver over w h
    · exact quietEs args w h
    · exact quietE filter w h
    · trivial
  | .name _ _, w, h => by simp [witemsE] at h; subst h; trivial
  | .unqualifiedStar, w, h => by simp [witemsE] at h; subst h; trivial
  | .tupleStar e, w, h => by
    simp [witemsE] at h
    rcases h with h | rfl
    · exact quietE e w h
    · trivial
  | .columnAccess e _, w, h => by
    simp [witemsE] at h
    rcases h with h | rfl
    · exact quietE e w h
    · trivial
  | .allColumns _, w, h => by simp [witemsE] at h; subst h; trivial
  | .columnItem _ _, w, h => by simp [witemsE] at h; subst h; trivial
  | .subquery id body, w, h => by simp [witemsE] at h; subst h; trivial

theorem quietEs : ∀ (es : List Expr), ∀ w ∈ witemsEs es, w.quiet
  | [], w, h => by simp [witemsEs] at h
  | e :: es, w, h => by
    simp [witemsEs] at h
    rcases h with h | h
    · exact quietE e w h
    · exact quietEs es w h

theorem quietWs : ∀ (ws : List When), ∀ w ∈ witemsWs ws, w.quiet
  | [], w, h => by simp [witemsWs] at h
  | x :: ws, w, h => by
    simp [witemsWs] at h
    rcases h with h | h
    · exact quietW x w h
    · exact quietWs ws w h

theorem quietW : ∀ (x : When), ∀ w ∈ witemsW x, w.quiet
  | .mk c v, w, h => by
    simp [witemsW] at h
    rcases h with h | h
    · exact quietE c w h
    · exact quietE v w h

theorem quietOver : ∀ (o : Over), ∀ w ∈ witemsOver o, w.quiet
  | .none, w, h => by simp [witemsOver] at h
  | .mk ps os f, w, h => by
    simp [witemsOver] at h
    rcases h with h | h | rfl
    · exact quietEs ps w h
    · exact quietFrame f w h
    · trivial

theorem quietFrame : ∀ (f : Frame), ∀ w ∈ witemsFrame f, w.quiet
  | .none, w, h => by simp [witemsFrame] at h
  | .mk a z, w, h => by
    simp [witemsFrame] at h
    rcases h with h | h | rfl
    · exact quietBound a w h
    · exact quietBound z w h
    · trivial

theorem quietBound : ∀ (o : Bound), ∀ w ∈ witemsBound o, w.quiet
  | .none, w, h => by simp [witemsBound] at h
  | .mk e, w, h => by
    simp [witemsBound] at h
    rcases h with h | rfl
    · exact quietE e w h
    · trivial

end

theorem quietSEs (es : List SelExpr) : ∀ w ∈ witemsSEs es, w.quiet := by
  induction es with
  | nil => simp [witemsSEs]
  | cons e es ih =>
    obtain ⟨e, as⟩ := e
    intro w h
    simp [witemsSEs] at h
    rcases h with h | rfl | h
    · exact quietE e w h
    · trivial
    · exact ih w h

theorem quietC (c : Cond) : ∀ w ∈ witemsC c, w.quiet := by
  intro w h
  cases c with
  | on e =>
    simp [witemsC] at h
    rcases h with h | rfl
    · exact quietE e w h
    · trivial
  | _ => simp [witemsC] at h; subst h; trivial

theorem quietT (t : TableExpr) : ∀ w ∈ witemsT t, w.quiet := by
  intro w h
  fun_induction witemsT t with
  | case1 e as l ih =>
    simp at h
    rcases h with rfl | h | rfl
    · trivial
    · exact ih h
    · trivial
  | case8 l r c ihl ihr =>
    simp at h
    rcases h with h | h | h | rfl
    · exact ihl h
    · exact ihr h
    · exact quietC c w h
    · trivial
  | case9 items =>
    simp at h
    rcases h with h | rfl
    · exact quietEs items w h
    · trivial
  | _ => simp at h; subst h; trivial

theorem quietTs (ts : List TableExpr) : ∀ w ∈ witemsTs ts, w.quiet := by
  induction ts with
  | nil => simp [witemsTs]
  | cons t ts ih =>
    intro w h
    simp [witemsTs] at h
    rcases h with h | h
    · exact quietT t w h
    · exact ih w h

theorem quietO (o : Option Expr) : ∀ w ∈ witemsO o, w.quiet := by
  intro w h
  cases o with
  | none => simp [witemsO] at h
  | some e =>
    simp [witemsO] at h
    rcases h with h | rfl
    · exact quietE e w h
    · trivial

theorem quietS (s : Select) : ∀ w ∈ witemsS s, w.quiet := by
  intro w h
  obtain ⟨id, wi, orderBy, limit, body⟩ := s
  cases body with
  | clause exprs tables where_ groupBy having window distinctOn =>
    rw [witemsS, witemsClause] at h
    simp only [List.mem_append, List.mem_singleton] at h
    rcases h with ((((((((h | h) | h) | h) | h) | h) | h) | h) | rfl)
    · exact quietEs _ w h
    · cases limit with
      | none => simp [witemsL] at h
      | mk c o =>
        simp [witemsL] at h
        rcases h with h | rfl
        · exact quietE c w h
        · trivial
    · exact quietSEs _ w h
    · exact quietO _ w h
    · exact quietO _ w h
    · exact quietEs _ w h
    · exact quietEs _ w h
    · exact quietTs _ w h
    · trivial
  | _ => simp [witemsS] at h

/-- one quiet call -/
theorem quiet_step (norm : Str → Str) (schema : Str) (fuel : Nat) (ev : Ev) (h : quiet ev) (p : Nat)
    (st : St) (hs : st.stack ≠ []) (hl : st.lastError = none) :
    ∃ st', scopeStep norm schema fuel st ev = .ok st' ∧ Grow p [] (unkOf [ev]) [] [] [] st st' := by
  obtain ⟨x, r, hx⟩ := List.exists_cons_of_ne_nil hs
  obtain ⟨n, q⟩ := x
  cases ev with
  | plain =>
    refine ⟨st, ?_, Grow.same p hl rfl rfl (by simp [unkOf]) rfl rfl rfl rfl rfl rfl⟩
    simp [scopeStep, leave, hx]
  | unknown =>
    refine ⟨{ st with unknown := st.unknown ++ [.unknownNode] }, ?_,
      Grow.same p hl rfl rfl (by simp [unkOf]) rfl rfl rfl rfl rfl rfl⟩
    simp [scopeStep, leave, hx]
  | enterAliased e as =>
    exact ⟨st, rfl, Grow.same p hl rfl rfl (by simp [unkOf]) rfl rfl rfl rfl rfl rfl⟩
  | _ => exact absurd h (by simp [quiet])

theorem unkOf_append (a b : List Ev) : unkOf (a ++ b) = unkOf a ++ unkOf b := by
  simp [unkOf]

theorem Ready.walk {norm : Str → Str} {schema : Str} {fuel : Nat} {s : Select}
    (h : Ready norm schema fuel s) :
    walkS s = [.enterSelect s] ++ (witemsS s).flatMap WItem.evs ++ [.leaveSelect s] := by
  obtain ⟨id, orderBy, limit, exprs, tables, where_, groupBy, having, window, distinctOn, rfl, _⟩ :=
    h.clause
  exact walkS_clause _ _ _ _ _ _ _ _ _ _

theorem nameIn_congr {infos infos' : List (Nat × SelInfo)} {id : Nat}
    (h : mapGet id infos' = mapGet id infos) : nameIn infos' id = nameIn infos id := by
  unfold nameIn; rw [h]

theorem push_self {α : Type} (h : List α) (c : α) (p : Nat) (f : α → α) (hp : p < h.length) :
    ((h ++ [c]).modify p f)[h.length]? = some c := by
  have : p ≠ h.length := by omega
  simp [List.getElem?_modify, this]

theorem push_other {α : Type} (h : List α) (c : α) (p q : Nat) (f : α → α) (hq : q < h.length)
    (hqp : q ≠ p) : ((h ++ [c]).modify p f)[q]? = h[q]? := by
  have : p ≠ q := Ne.symm hqp
  rw [List.getElem?_modify, List.getElem?_append_left hq]
  simp [this]

theorem push_own {α : Type} (h : List α) (c c' : α) (p : Nat) (f : α → α) (hc : h[p]? = some c') :
    ((h ++ [c]).modify p f)[p]? = some (f c') := by
  have hp : p < h.length := by
    by_contra hp
    rw [List.getElem?_eq_none (by omega)] at hc
    cases hc
  rw [List.getElem?_modify, List.getElem?_append_left hp, hc]
  simp

/-- a subquery of an expression -/
theorem sub_field {norm : Str → Str} {schema : Str} {fuel : Nat} {x : Select} {i p : Nat} {nm : Str}
    (hr : Ready norm schema fuel x) (hv : Visit norm schema fuel x)
    (hn : (bregs norm schema x).Nodup) (hx : x.id ∉ bregs norm schema x)
    (hsep : ∀ i' x', (true, i', x') ∈ wsubs x → i' ≠ i) (st : St) (hs : st.stack ≠ [])
    (hsc : st.scopes ≠ []) (hl : st.lastError = none) (hp : p < st.heap.length)
    (hi : mapGet x.id st.infos = some ⟨nm, some p⟩) :
    ∃ st', runScopes norm schema fuel (WItem.sub false i (.paren x)).evs st = .ok st' ∧
      Grow p (bregs norm schema x) (unkOf (WItem.sub false i (.paren x)).evs) (errsS norm schema x)
        [den norm schema (nameIn st'.infos) x] [] st st' := by
  have hcell : (newFieldScope nm p st).heap[st.heap.length]? =
      some { name := nameIn (newFieldScope nm p st).infos x.id } := by
    have e : nameIn (newFieldScope nm p st).infos x.id = nm := by
      show nameIn st.infos x.id = nm
      simp [nameIn, hi]
    rw [e]
    exact push_self st.heap _ p _ hp
  obtain ⟨st1, st2, a1, a2, a3, a4⟩ := hv (newFieldScope nm p st) (.subquery i) st.heap.length hl hcell
    (fun i' x' h e => hsep i' x' h (by cases e; rfl)) hn hx
  have e1 : enterSubquery norm schema fuel i (.paren x) st = .ok st1 := by
    rw [enterSubquery, hi]; exact a1
  have e2 : enterSelect norm schema fuel x st1 = .ok st1 := by
    rw [enterSelect, if_pos]
    rw [a4 _ hx]
    show ((mapGet x.id st.infos).bind (·.fieldOf)).isSome = true
    rw [hi]; rfl
  have hst2 : st2.stack = (.subquery i, st.heap.length) :: st.stack := a3.stack
  have e3 : leave (some (.select x.id)) st2 = .ok st2 := by
    simp [leave, hst2]
  have e4 : leave none st2 = .ok st2 := by
    simp [leave, hst2]
  have e5 : leave (some (.subquery i)) st2 = .ok { st2 with stack := st.stack } := by
    simp [leave, hst2]
  have hevs : (WItem.sub false i (.paren x)).evs = [.enterSubquery i (.paren x), .enterSelect x] ++
      (witemsS x).flatMap WItem.evs ++ [.leaveSelect x, .plain, .leaveSubquery i] := by
    simp [WItem.evs, walkB, hr.walk]
  have hlen : (newFieldScope nm p st).heap.length = st.heap.length + 1 := by
    simp [newFieldScope, St.update]
  refine ⟨{ st2 with stack := st.stack }, ?_, ?_⟩
  · rw [hevs, runScopes_append, runScopes_append, runScopes_cons]
    simp only [scopeStep, e1]
    rw [runScopes_cons]
    simp only [scopeStep, e2]
    have : runScopes norm schema fuel [] st1 = .ok st1 := rfl
    simp only [this, a2]
    rw [runScopes_cons]
    simp only [scopeStep, e3]
    rw [runScopes_cons]
    simp only [scopeStep, e4]
    rw [runScopes_cons]
    simp only [scopeStep, e5]
    rfl
  · have hu : unkOf (WItem.sub false i (.paren x)).evs = unkOf ((witemsS x).flatMap WItem.evs) := by
      rw [hevs, unkOf_append, unkOf_append]
      simp [unkOf]
    have hother : ∀ q, q < st.heap.length → st2.heap[q]? = (newFieldScope nm p st).heap[q]? :=
      fun q hq => a3.other q (by omega) (by omega)
    refine ⟨rfl, ?_, a3.lastError, a3.errors, ?_, a3.infos, a3.reg, ?_, ?_, ?_, ?_⟩
    · show st2.scopes = st.scopes
      rw [a3.scopes]
      exact if_neg hsc
    · rw [hu]; exact a3.unknown
    · intro h
      have h' : Inv (newFieldScope nm p st) := h.congr rfl rfl rfl
      exact (a3.inv h').congr rfl rfl rfl
    · have := a3.len
      show st.heap.length ≤ st2.heap.length
      omega
    · intro q hq hqp
      show st2.heap[q]? = st.heap[q]?
      rw [hother q hq]
      exact push_other st.heap _ p q _ hq hqp
    · refine ⟨[st.heap.length], [], ?_, ?_, by simp [ReadsL]⟩
      · intro c hc
        show st2.heap[p]? = _
        rw [hother p hp]
        have := push_own st.heap { name := nm } c p
          (fun c => { c with fieldScopes := c.fieldScopes ++ [st.heap.length] }) hc
        simpa [newFieldScope, St.update] using this
      · rw [ReadsL]
        exact ⟨a3.own, by simp [ReadsL]⟩

/-- a derived table -/
theorem sub_table {norm : Str → Str} {schema : Str} {fuel : Nat} {x : Select} {i p : Nat} {nm : Str}
    {node : Node} {rest : List (Node × Nat)}
    (hr : Ready norm schema fuel x) (hv : Visit norm schema fuel x)
    (hn : (bregs norm schema x).Nodup) (hx : x.id ∉ bregs norm schema x)
    (st : St) (hs : st.stack = (node, p) :: rest) (hnode : node ≠ .subquery i)
    (hsc : st.scopes ≠ []) (hl : st.lastError = none) (hp : p < st.heap.length)
    (hi : mapGet x.id st.infos = some ⟨nm, none⟩) :
    ∃ st', runScopes norm schema fuel (WItem.sub true i (.paren x)).evs st = .ok st' ∧
      Grow p (bregs norm schema x) (unkOf (WItem.sub true i (.paren x)).evs) (errsS norm schema x)
        [] [den norm schema (nameIn st'.infos) x] st st' := by
  have hnew : newScope x.id st = ({ st with
      heap := (st.heap ++ [({ name := nm } : Cell)]).modify p
        fun c => { c with subScopes := c.subScopes ++ [st.heap.length] } } : St) := by
    unfold newScope
    simp only [hs, hi]
    rfl
  have hcell : (newScope x.id st).heap[st.heap.length]? =
      some { name := nameIn (newScope x.id st).infos x.id } := by
    rw [hnew]
    have e : nameIn st.infos x.id = nm := by
      simp [nameIn, hi]
    simp only [e]
    exact push_self st.heap _ p _ hp
  have hstk : (newScope x.id st).stack = st.stack := by rw [hnew]
  have hinf : (newScope x.id st).infos = st.infos := by rw [hnew]
  obtain ⟨st1, st2, a1, a2, a3, a4⟩ := hv (newScope x.id st) (.select x.id) st.heap.length
    (by rw [hnew]; exact hl) hcell (by simp) hn hx
  have e1 : enterSubquery norm schema fuel i (.paren x) st = .ok st := by
    rw [enterSubquery, hi]
  have e2 : enterSelect norm schema fuel x st = .ok st1 := by
    rw [enterSelect, if_neg]
    · exact a1
    · rw [hi]; simp
  have hst2 : st2.stack = (.select x.id, st.heap.length) :: st.stack := by
    rw [a3.stack, hstk]
  have e3 : leave (some (.select x.id)) st2 = .ok { st2 with stack := st.stack } := by
    simp [leave, hst2]
  have e4 : leave none { st2 with stack := st.stack } = .ok { st2 with stack := st.stack } := by
    simp [leave, hs]
  have e5 : leave (some (.subquery i)) { st2 with stack := st.stack } =
      .ok { st2 with stack := st.stack } := by
    simp [leave, hs, hnode]
  have hevs : (WItem.sub true i (.paren x)).evs = [.enterSubquery i (.paren x), .enterSelect x] ++
      (witemsS x).flatMap WItem.evs ++ [.leaveSelect x, .plain, .leaveSubquery i] := by
    simp [WItem.evs, walkB, hr.walk]
  have hlen : (newScope x.id st).heap.length = st.heap.length + 1 := by
    rw [hnew]; simp
  refine ⟨{ st2 with stack := st.stack }, ?_, ?_⟩
  · rw [hevs, runScopes_append, runScopes_append, runScopes_cons]
    simp only [scopeStep, e1]
    rw [runScopes_cons]
    simp only [scopeStep, e2]
    have : runScopes norm schema fuel [] st1 = .ok st1 := rfl
    simp only [this, a2]
    rw [runScopes_cons]
    simp only [scopeStep, e3]
    rw [runScopes_cons]
    simp only [scopeStep, e4]
    rw [runScopes_cons]
    simp only [scopeStep, e5]
    rfl
  · have hu : unkOf (WItem.sub true i (.paren x)).evs = unkOf ((witemsS x).flatMap WItem.evs) := by
      rw [hevs, unkOf_append, unkOf_append]
      simp [unkOf]
    have hother : ∀ q, q < st.heap.length → st2.heap[q]? = (newScope x.id st).heap[q]? :=
      fun q hq => a3.other q (by omega) (by omega)
    refine ⟨rfl, ?_, a3.lastError, ?_, ?_, ?_, a3.reg, ?_, ?_, ?_, ?_⟩
    · show st2.scopes = st.scopes
      rw [a3.scopes, hnew]
      exact if_neg hsc
    · show st2.errors = _
      rw [a3.errors, hnew]
    · show st2.unknown = _
      rw [hu, a3.unknown, hnew]
    · intro id hid
      show mapGet id st2.infos = _
      rw [a3.infos id hid, hinf]
    · intro h
      have h' : Inv (newScope x.id st) := h.congr (by rw [hnew]) (by rw [hnew]) (by rw [hnew])
      exact (a3.inv h').congr rfl rfl rfl
    · have := a3.len
      show st.heap.length ≤ st2.heap.length
      omega
    · intro q hq hqp
      show st2.heap[q]? = st.heap[q]?
      rw [hother q hq, hnew]
      exact push_other st.heap _ p q _ hq hqp
    · refine ⟨[], [st.heap.length], ?_, by simp [ReadsL], ?_⟩
      · intro c hc
        show st2.heap[p]? = _
        rw [hother p hp, hnew]
        have := push_own st.heap { name := nm } c p
          (fun c => { c with subScopes := c.subScopes ++ [st.heap.length] }) hc
        simpa using this
      · rw [ReadsL]
        exact ⟨a3.own, by simp [ReadsL]⟩

/-- a piece of the walk through a select -/
theorem walk_items {norm : Str → Str} {schema : Str} {fuel : Nat} {node : Node} {p : Nat}
    {rest : List (Node × Nat)} (P : List Nat) (W : List WItem) (hq : ∀ w ∈ W, w.quiet)
    (hb : ∀ d i b, .sub d i b ∈ W → ∃ x, b = .paren x)
    (hr : ∀ x ∈ W.filterMap WItem.sel, AllReady norm schema fuel x.2.2)
    (hv : ∀ x ∈ W.filterMap WItem.sel, Visit norm schema fuel x.2.2)
    (hnode : ∀ i x, (true, i, x) ∈ W.filterMap WItem.sel → node ≠ .subquery i)
    (hsep : ∀ i x i' x', (false, i, x) ∈ W.filterMap WItem.sel → (true, i', x') ∈ wsubs x → i' ≠ i)
    (hP : ∀ x ∈ W.filterMap WItem.sel, x.2.2.id ∈ P)
    (hPd : ∀ id ∈ P, id ∉ (W.filterMap WItem.sel).flatMap fun x => bregs norm schema x.2.2)
    (hn : ((W.filterMap WItem.sel).flatMap fun x => bregs norm schema x.2.2).Nodup)
    (st : St) (hs : st.stack = (node, p) :: rest) (hsc : st.scopes ≠ []) (hl : st.lastError = none)
    (hp : p < st.heap.length)
    (hi : ∀ d i x, (d, i, x) ∈ W.filterMap WItem.sel →
      ∃ nm, mapGet x.id st.infos = some ⟨nm, if d then none else some p⟩) :
    ∃ st', runScopes norm schema fuel (W.flatMap WItem.evs) st = .ok st' ∧
      Grow p ((W.filterMap WItem.sel).flatMap fun x => bregs norm schema x.2.2)
        (unkOf (W.flatMap WItem.evs))
        ((W.filterMap WItem.sel).flatMap fun x => errsS norm schema x.2.2)
        (fieldDens norm schema (nameIn st'.infos) (W.filterMap WItem.sel))
        (subDens norm schema (nameIn st'.infos) (W.filterMap WItem.sel)) st st' := by
  induction W generalizing st with
  | nil =>
    exact ⟨st, rfl, Grow.same p hl rfl rfl (by simp [unkOf]) rfl rfl rfl rfl rfl rfl⟩
  | cons w W ih =>
    have hq' : ∀ w ∈ W, w.quiet := fun w h => hq w (by simp [h])
    have hb' : ∀ d i b, .sub d i b ∈ W → ∃ x, b = .paren x := fun d i b h => hb d i b (by simp [h])
    cases w with
    | noise ev =>
      obtain ⟨st1, a1, a2⟩ := quiet_step norm schema fuel ev (hq (.noise ev) (by simp)) p st (by simp [hs]) hl
      have hinf : ∀ id, mapGet id st1.infos = mapGet id st.infos := fun id => a2.infos id (by simp)
      obtain ⟨st2, b1, b2⟩ := ih hq' hb' hr hv hnode hsep hP hPd hn st1 (by rw [a2.stack, hs])
        (by rw [a2.scopes]; exact hsc) a2.lastError (Nat.lt_of_lt_of_le hp a2.len)
        (by intro d i x h; rw [hinf]; exact hi d i x h)
      refine ⟨st2, ?_, ?_⟩
      · rw [List.flatMap_cons, runScopes_append]
        have e : runScopes norm schema fuel (WItem.noise ev).evs st = .ok st1 := by
          show runScopes norm schema fuel [ev] st = .ok st1
          rw [runScopes_cons]
          simp only [a1]
          rfl
        rw [e]
        exact b1
      · have := a2.trans hp b2
        rw [List.flatMap_cons, unkOf_append]
        exact this
    | sub d i b =>
      obtain ⟨x, rfl⟩ := hb d i b (by simp)
      have hsel : (WItem.sub d i (.paren x) :: W).filterMap WItem.sel =
          (d, i, x) :: W.filterMap WItem.sel := rfl
      rw [hsel] at hr hv hnode hsep hP hPd hn hi ⊢
      simp only [List.flatMap_cons] at hPd hn ⊢
      rw [List.nodup_append] at hn
      obtain ⟨hn1, hn2, hn3⟩ := hn
      have hxP : x.id ∈ P := hP (d, i, x) (by simp)
      have hx : x.id ∉ bregs norm schema x := fun h =>
        hPd x.id hxP (List.mem_append_left _ h)
      have hrx : AllReady norm schema fuel x := hr (d, i, x) (by simp)
      have hready : Ready norm schema fuel x := by cases hrx; assumption
      have hvx : Visit norm schema fuel x := hv (d, i, x) (by simp)
      obtain ⟨nm, hix⟩ := hi d i x (by simp)
      have step : ∃ st1, runScopes norm schema fuel (WItem.sub d i (.paren x)).evs st = .ok st1 ∧
          Grow p (bregs norm schema x) (unkOf (WItem.sub d i (.paren x)).evs) (errsS norm schema x)
            (fieldDens norm schema (nameIn st1.infos) [(d, i, x)])
            (subDens norm schema (nameIn st1.infos) [(d, i, x)]) st st1 := by
        cases d
        · exact sub_field hready hvx hn1 hx (fun i' x' h => hsep i x i' x' (by simp) h) st
            (by simp [hs]) hsc hl hp hix
        · exact sub_table hready hvx hn1 hx st hs (hnode i x (by simp)) hsc hl hp hix
      obtain ⟨st1, a1, a2⟩ := step
      obtain ⟨st2, b1, b2⟩ := ih hq' hb' (fun y h => hr y (by simp [h])) (fun y h => hv y (by simp [h]))
        (fun i x h => hnode i x (by simp [h])) (fun i x i' x' h => hsep i x i' x' (by simp [h]))
        (fun y h => hP y (by simp [h]))
        (fun id h h' => hPd id h (List.mem_append_right _ h')) hn2 st1 (by rw [a2.stack, hs])
        (by rw [a2.scopes]; exact hsc) a2.lastError (Nat.lt_of_lt_of_le hp a2.len)
        (by
          intro d' i' y h
          have hy : y.id ∉ bregs norm schema x := fun h' =>
            hPd y.id (hP (d', i', y) (by simp [h])) (List.mem_append_left _ h')
          rw [a2.infos _ hy]
          exact hi d' i' y (by simp [h]))
      have hν : den norm schema (nameIn st1.infos) x = den norm schema (nameIn st2.infos) x := by
        refine den_congr norm schema fuel _ _ x hrx ?_ ?_
        · refine (nameIn_congr (b2.infos x.id ?_)).symm
          exact fun h => hPd x.id hxP (List.mem_append_right _ h)
        · intro id hid
          refine (nameIn_congr (b2.infos id ?_)).symm
          exact fun h => hn3 id hid id h rfl
      refine ⟨st2, ?_, ?_⟩
      · rw [runScopes_append, a1]
        exact b1
      · have hg := a2.trans hp b2
        rw [unkOf_append]
        have e1 : fieldDens norm schema (nameIn st2.infos) ((d, i, x) :: W.filterMap WItem.sel) =
            fieldDens norm schema (nameIn st1.infos) [(d, i, x)] ++
              fieldDens norm schema (nameIn st2.infos) (W.filterMap WItem.sel) := by
          cases d
          · simp [fieldDens, hν]
          · simp [fieldDens]
        have e2 : subDens norm schema (nameIn st2.infos) ((d, i, x) :: W.filterMap WItem.sel) =
            subDens norm schema (nameIn st1.infos) [(d, i, x)] ++
              subDens norm schema (nameIn st2.infos) (W.filterMap WItem.sel) := by
          cases d
          · simp [subDens]
          · simp [subDens, hν]
        rw [e1, e2]
        exact hg

theorem visit_all {norm : Str → Str} {schema : Str} {fuel : Nat} {s : Select}
    (h : AllReady norm schema fuel s) : Visit norm schema fuel s := by
  induction h with
  | mk s hr hs ih =>
    intro st node p hl hcell hnode hn hsid
    have hn0 := hn
    rw [bregs_eq, List.nodup_append] at hn
    obtain ⟨hn1, hn2, hn3⟩ := hn
    obtain ⟨hpn, hpd⟩ := pregs_nodup _ hn1
    have hp : p < st.heap.length := by
      by_contra hp
      rw [List.getElem?_eq_none (by omega)] at hcell
      cases hcell
    obtain ⟨stP, a1, a2, a3, a4, a5⟩ := runP_reg norm p (partsS norm schema s) hr.ok hpn hpd
      { st with stack := (node, p) :: st.stack } rfl hl
    have e1 : enterClause norm schema fuel node p s st = .ok (finishEnter p
        ((partsS norm schema s).flatMap (Part.fields (nameIn stP.infos))) stP) := by
      obtain ⟨id, orderBy, limit, exprs, tables, where_, groupBy, having, window, distinctOn, rfl,
        ht1, ht2⟩ := hr.clause
      rw [enterClause_eq _ _ _ _ _ _ _ _ _ _ _ _ _ _ _ _ _ ht1 ht2, a1]
      rfl
    let found := (partsS norm schema s).flatMap (Part.fields (nameIn stP.infos))
    let st1 : St := finishEnter p found stP
    have hinf1 : st1.infos = stP.infos := rfl
    have hlen1 : st1.heap.length = st.heap.length := by
      show ((stP.heap.modify p _).length) = _
      rw [a4]
      simp
    have hcell1 : st1.heap[p]? = some
        { name := nameIn st.infos s.id,
          fields := found.filter (·.columns ≠ []),
          tables := ptabs norm (nameIn stP.infos) (partsS norm schema s) [] } := by
      show (stP.heap.modify p _)[p]? = _
      rw [a4, List.getElem?_modify, List.getElem?_modify]
      simp [hcell]
    have hoth1 : ∀ q, q ≠ p → st1.heap[q]? = st.heap[q]? := by
      intro q hq
      have hq' : p ≠ q := Ne.symm hq
      show (stP.heap.modify p _)[q]? = _
      rw [a4, List.getElem?_modify, List.getElem?_modify]
      simp [hq']
    have hsc1 : st1.scopes = if st.scopes = [] then [p] else st.scopes := by
      show (if stP.scopes = [] then [p] else stP.scopes) = _
      rw [a2.scopes]
    have hdP : ∀ id ∈ pregs (partsS norm schema s),
        id ∉ (wsubs s).flatMap fun x => bregs norm schema x.2.2 :=
      fun id h1 h2 => hn3 id h1 id h2 rfl
    have hxP : ∀ x ∈ wsubs s, x.2.2.id ∈ pregs (partsS norm schema s) := by
      intro x hx
      rw [mem_pregs]
      obtain ⟨d, i, x⟩ := x
      cases d
      · exact .inl (hr.regF i x hx)
      · exact .inr (hr.regS i x hx)
    obtain ⟨st2, b1, b2⟩ := walk_items (norm := norm) (schema := schema) (fuel := fuel) (node := node)
      (p := p) (rest := st.stack) (pregs (partsS norm schema s)) (witemsS s) (quietS s) hr.bodies
      hs ih hnode hr.sep hxP hdP hn2 st1 a2.stack
      (by rw [hsc1]; split
          · simp
          · assumption) a3 (by rw [hlen1]; exact hp)
      (by
        intro d i x hx
        cases d
        · exact a2.field x.id (hr.regF i x hx)
        · exact a2.table x.id (hr.regS i x hx))
    have hν : ∀ id, id ∉ ((wsubs s).flatMap fun x => bregs norm schema x.2.2) →
        nameIn st2.infos id = nameIn stP.infos id := fun id hid => nameIn_congr (b2.infos id hid)
    have hbr : ∀ id, id ∉ bregs norm schema s → id ∉ pregs (partsS norm schema s) ∧
        id ∉ (wsubs s).flatMap fun x => bregs norm schema x.2.2 := by
      intro id hid
      rw [bregs_eq, List.mem_append, not_or] at hid
      exact hid
    have hreg : ∀ id, id ∉ pregs (partsS norm schema s) →
        mapGet id stP.infos = mapGet id st.infos := by
      intro id hid
      rw [mem_pregs, not_or] at hid
      exact a2.other id hid.1 hid.2
    refine ⟨st1, st2, e1, b1, ?_, ?_⟩
    · refine ⟨?_, ?_, b2.lastError, ?_, ?_, ?_, ?_, ?_, ?_, ?_, ?_⟩
      · rw [b2.stack]; exact a2.stack
      · rw [b2.scopes]; exact hsc1
      · rw [b2.errors, errsS_eq, ← List.append_assoc]
        congr 1
      · rw [b2.unknown]
        congr 1
        exact a2.unknown
      · intro id hid
        rw [b2.infos id (hbr id hid).2]
        exact hreg id (hbr id hid).1
      · intro id hid
        by_cases h1 : id ∈ (wsubs s).flatMap fun x => bregs norm schema x.2.2
        · exact b2.reg id h1
        · rw [b2.infos id h1]
          rw [bregs_eq, List.mem_append] at hid
          rcases hid with h2 | h2
          · rw [mem_pregs] at h2
            rcases h2 with h2 | h2
            · obtain ⟨nm, h3⟩ := a2.field id h2
              rw [hinf1, h3]; simp
            · obtain ⟨nm, h3⟩ := a2.table id h2
              rw [hinf1, h3]; simp
          · exact absurd h2 h1
      · intro h
        have h0 : Inv { st with stack := (node, p) :: st.stack } := h.congr rfl rfl rfl
        exact b2.inv ((a2.inv h0).congr rfl rfl rfl)
      · rw [← hlen1]; exact b2.len
      · intro q hq hqp
        rw [b2.other q (by rw [hlen1]; exact hq) hqp, hoth1 q hqp]
      · obtain ⟨fps, sps, c1, c2, c3⟩ := b2.own
        rw [den_eq, Reads]
        have hl2 := b2.len
        refine ⟨Nat.le_refl _, by omega, _, c1 _ hcell1, ?_, ?_, ?_, ?_, ?_⟩
        · show nameIn st.infos s.id = nameIn st2.infos s.id
          rw [hν s.id (hbr s.id hsid).2]
          exact (nameIn_congr (hreg s.id (hbr s.id hsid).1)).symm
        · show found.filter _ = _
          rw [pfields_congr (nameIn st2.infos) (nameIn stP.infos) _ fun id hid => hν id (hdP id hid)]
        · show ptabs norm (nameIn stP.infos) (partsS norm schema s) [] = _
          exact (ptabs_congr norm _ _ _ _ fun id hid => hν id (hdP id hid)).symm
        · exact ReadsL.mono (fun _ _ _ => rfl) (by omega) (Nat.le_refl _) _ _ c2
        · exact ReadsL.mono (fun _ _ _ => rfl) (by omega) (Nat.le_refl _) _ _ c3
    · intro id hid
      rw [hinf1]
      exact hreg id (hbr id hid).1

/-- The whole collection. -/
theorem collect_eq {norm : Str → Str} {schema : Str} {fuel : Nat} {s : Select}
    (hr : AllReady norm schema fuel s) (hn : (bregs norm schema s).Nodup)
    (hs : s.id ∉ bregs norm schema s) :
    ∃ ν : Nat → Str, ν s.id = rootName ∧
      (∀ id ∈ bregs norm schema s, ν id ≠ rootName ∧ (ν id).head? = some '<') ∧
      (∀ id ∈ bregs norm schema s, ∀ id' ∈ bregs norm schema s, ν id = ν id' → id = id') ∧
      collectStmtScopes norm schema fuel (.select s) =
        if unkOf (walkS s) ≠ [] then .ok (.error (unkOf (walkS s)))
        else if errsS norm schema s ≠ [] then .ok (.error (errsS norm schema s))
        else .ok (.ok [den norm schema ν s]) := by
  have hready : Ready norm schema fuel s := by cases hr; assumption
  have hnew : newScope s.id {} = ({ heap := [{ name := rootName }] } : St) := by
    unfold newScope
    rfl
  obtain ⟨st1, st2, a1, a2, a3, a4⟩ := visit_all hr (newScope s.id {}) (.select s.id) 0
    (by rw [hnew]) (by rw [hnew]; rfl) (by simp) hn hs
  rw [hnew] at a1 a3 a4
  have e1 : enterSelect norm schema fuel s {} = .ok st1 := by
    rw [enterSelect, if_neg (by simp [mapGet]), hnew]
    exact a1
  have e2 : leave (some (.select s.id)) st2 = .ok { st2 with stack := [] } := by
    simp [leave, a3.stack]
  have hrun : runScopes norm schema fuel (walkS s) {} = .ok { st2 with stack := [] } := by
    rw [hready.walk, runScopes_append, runScopes_append, runScopes_cons]
    simp only [scopeStep, e1]
    have : runScopes norm schema fuel [] st1 = .ok st1 := rfl
    simp only [this, a2]
    rw [runScopes_cons]
    simp only [scopeStep, e2]
    rfl
  have hu : st2.unknown = unkOf (walkS s) := by
    rw [a3.unknown, hready.walk, unkOf_append, unkOf_append]
    simp [unkOf]
  have he : st2.errors = errsS norm schema s := by rw [a3.errors]; simp
  have hinv : Inv st2 := a3.inv ⟨by intro id i h; simp [mapGet] at h, by intro id id' i i' h; simp [mapGet] at h⟩
  refine ⟨nameIn st2.infos, ?_, ?_, ?_, ?_⟩
  · rw [nameIn_congr (a3.infos s.id hs)]; rfl
  · intro id hid
    obtain ⟨i, hi⟩ := Option.ne_none_iff_exists'.mp (a3.reg id hid)
    simp only [nameIn, hi, Option.map_some, Option.getD_some]
    rcases hinv.shape id i hi with ⟨_, k, _, h⟩ | ⟨_, k, _, h⟩
    · rw [h]; exact ⟨genName_field_root k, rfl⟩
    · rw [h]; exact ⟨genName_select_root k, rfl⟩
  · intro id hid id' hid' e
    obtain ⟨i, hi⟩ := Option.ne_none_iff_exists'.mp (a3.reg id hid)
    obtain ⟨i', hi'⟩ := Option.ne_none_iff_exists'.mp (a3.reg id' hid')
    simp only [nameIn, hi, hi', Option.map_some, Option.getD_some] at e
    exact hinv.inj id id' i i' hi hi' e
  · rw [collectStmtScopes, hrun]
    simp only [hu, he]
    split
    · rfl
    · split
      · rfl
      · have hsc : st2.scopes = [0] := by rw [a3.scopes]; rfl
        have := readScope_of _ 0 st2.heap.length a3.own (by omega)
        simp only [hsc, List.mapM_cons, List.mapM_nil, this]
        rfl

end Verif.PgScope
