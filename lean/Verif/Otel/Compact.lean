import Mathlib.Data.List.Basic
import Mathlib.Data.List.Nodup
import Verif.Otel.Convert
/-!
# Compaction of trace trees

`/repo/otel/omodel/trace_compacter.go`, `/repo/otel/omodel/trace_tree.go:17-38`.
-/
namespace Verif.Otel
open Verif.Lib

/-! ## Model -/

/-- `/repo/otel/omodel/span.go:43-50` `IsLastDbSpan` -/
def isLastDb (s : Span) (children : List (Tree Span)) : Bool :=
  if children.length > 0 then false else (mapGet dbSystemKey s.attrs).isSome

/-- `/repo/otel/omodel/span.go:35-41` `GetDBSystem` -/
def dbSystem (s : Span) : Str :=
  match mapGet dbSystemKey s.attrs with
  | none => []
  | some d => getString d

/-- `trace_compacter.go:44-56` `remains`; the parent is the span above in the tree. -/
def remains (parent : Option Span) (s : Span) (children : List (Tree Span)) : Bool :=
  match parent with
  | none => true
  | some p => if p.service ≠ s.service then true else isLastDb s children

/-- `trace_compacter.go:23-26`: the copy, with the renamed service for a last database span. -/
def copyOf (s : Span) (children : List (Tree Span)) : Span :=
  if isLastDb s children then
    { s with service := dbSystem s ++ " (".toList ++ s.service ++ ")".toList }
  else s

/-- `/repo/otel/omodel/span.go:66-68` `IsSame` -/
def isSame (a b : Span) : Bool := a.traceId == b.traceId && a.spanId == b.spanId

/-- The stack `parentStack` with the children each copy has so far.  `topDone` holds the children of
the artificial top span once that is popped (`Compact` still holds a pointer to it). -/
structure CState where
  stack : List (Frame Span)
  topDone : Option (List (Tree Span))

/-- `trace_compacter.go:18-34` `Enter`.  On an empty stack the copy is pushed without being attached
anywhere. -/
def enterC (parent : Option Span) (s : Span) (children : List (Tree Span)) (st : CState) : CState :=
  if !remains parent s children then st
  else { st with stack := (copyOf s children, []) :: st.stack }

/-- `parentStack.Pop()` -/
def popC (st : CState) : CState :=
  match st.stack with
  | [] => st
  | [(_, cs)] => ⟨[], match st.topDone with | none => some cs | some x => some x⟩
  | (a, cs) :: (b, ds) :: r => { st with stack := (b, ds ++ [.node a cs]) :: r }

/-- `trace_compacter.go:36-42` `Leave`: `Top()` is nil on an empty stack, and `IsSame` panics. -/
def leaveC (s : Span) (st : CState) : Except Err CState :=
  match st.stack with
  | [] => .error .panic
  | (a, _) :: _ => if isSame a s then .ok (popC st) else .ok st

mutual
/-- `trace_tree.go:17-24` `visitRecursive` with the compacter. -/
def visitC (parent : Option Span) : Tree Span → CState → Except Err CState
  | .node s cs, st => match visitCL s cs (enterC parent s cs st) with
    | .error e => .error e
    | .ok st' => leaveC s st'
/-- the loop over the children -/
def visitCL (s : Span) : List (Tree Span) → CState → Except Err CState
  | [], st => .ok st
  | c :: cs, st => match visitC (some s) c st with
    | .error e => .error e
    | .ok st' => visitCL s cs st'
end

/-- the children of the artificial top span -/
def topChildren (st : CState) : List (Tree Span) :=
  match st.topDone with
  | some cs => cs
  | none => match bottom st.stack with
    | some t => t.children
    | none => []

/-- `trace_tree.go:29-38` `Compact` (the result's root, possibly nil) -/
def compact (t : Tree Span) : Except Err (Option (Tree Span)) :=
  match visitC none t ⟨[({}, [])], none⟩ with
  | .error e => .error e
  | .ok st => .ok (topChildren st).head?

/-! ## Specification -/

/-- identity of a span -/
def key (s : Span) : Bytes × Bytes := (s.traceId, s.spanId)

/-- what the span says of the database it asks: the attribute `db.system` -/
def databaseOf (s : Span) : Option Datum := mapGet "db.system".toList s.attrs

/-- the text of an attribute; others than texts have none -/
def textOf (d : Datum) : Str :=
  match d with
  | .str s => s
  | .bool _ | .int _ | .dbl _ | .arr _ | .kv _ | .bytes _ => []

/-- Does the span with these ancestors (nearest first) and children stay? -/
def Kept (ancestors : List Span) (s : Span) (children : List Span) : Prop :=
  ancestors = [] ∨ (∃ p r, ancestors = p :: r ∧ p.service ≠ s.service) ∨
    (children = [] ∧ ∃ v, databaseOf s = some v)

/-- The ancestors that stay: the root and those on another service than their parent.  (Ancestors
have children, so none of them is a leaf database span.) -/
def keptAncestors : List Span → List Span
  | [] => []
  | [r] => [r]
  | a :: b :: r => if b.service ≠ a.service then a :: keptAncestors (b :: r) else keptAncestors (b :: r)

/-- The copy that is shown: a leaf database span names the database in front of its service. -/
def shown (s : Span) (children : List Span) : Span :=
  match children, databaseOf s with
  | [], some v => { s with service := textOf v ++ " (".toList ++ s.service ++ ")".toList }
  | _, _ => s

/-! ## Proof -/

mutual
/-- the compacted forest of a subtree -/
def compT (parent : Option Span) : Tree Span → List (Tree Span)
  | .node s cs => if remains parent s cs then [.node (copyOf s cs) (compL s cs)] else compL s cs
/-- the same for the children of a span -/
def compL (s : Span) : List (Tree Span) → List (Tree Span)
  | [] => []
  | c :: cs => compT (some s) c ++ compL s cs
end

theorem key_copyOf (s : Span) (cs : List (Tree Span)) : key (copyOf s cs) = key s := by
  unfold copyOf; split <;> rfl

theorem isSame_iff (a b : Span) : isSame a b = true ↔ key a = key b := by
  simp [isSame, key]

mutual
theorem visitC_spec : ∀ (t : Tree Span) (parent : Option Span) (b : Span) (ds : List (Tree Span))
    (r : List (Frame Span)), (t.pre.map key).Nodup →
    (remains parent t.val t.children = true ∨ key b ∉ t.pre.map key) →
    visitC parent t ⟨(b, ds) :: r, none⟩ = .ok ⟨(b, ds ++ compT parent t) :: r, none⟩
  | .node s cs, parent, b, ds, r, hn, hk => by
    rw [Tree.pre, List.map_cons, List.nodup_cons] at hn
    rw [visitC]
    by_cases hr : remains parent s cs = true
    · have e : enterC parent s cs ⟨(b, ds) :: r, none⟩ =
          ⟨(copyOf s cs, []) :: (b, ds) :: r, none⟩ := by simp [enterC, hr]
      rw [e, visitCL_spec cs s (copyOf s cs) [] _ hn.2 (by rw [key_copyOf]; exact hn.1)]
      simp only [leaveC, (isSame_iff _ _).mpr (key_copyOf s cs), if_true, popC, compT, hr,
        List.nil_append]
    · have hr' : remains parent s cs = false := by simpa using hr
      have e : enterC parent s cs ⟨(b, ds) :: r, none⟩ = ⟨(b, ds) :: r, none⟩ := by
        simp [enterC, hr']
      have hb : key b ∉ (Tree.node s cs).pre.map key := by
        rcases hk with h | h
        · exact absurd h hr
        · exact h
      rw [Tree.pre, List.map_cons, List.mem_cons, not_or] at hb
      rw [e, visitCL_spec cs s b ds r hn.2 hb.2]
      have : isSame b s = false := by
        rw [← Bool.not_eq_true, isSame_iff]; exact hb.1
      simp only [leaveC, this, Bool.false_eq_true, if_false, compT, hr']
theorem visitCL_spec : ∀ (cs : List (Tree Span)) (s : Span) (b : Span) (ds : List (Tree Span))
    (r : List (Frame Span)), ((preL cs).map key).Nodup → key b ∉ (preL cs).map key →
    visitCL s cs ⟨(b, ds) :: r, none⟩ = .ok ⟨(b, ds ++ compL s cs) :: r, none⟩
  | [], s, b, ds, r, _, _ => by simp [visitCL, compL]
  | c :: cs, s, b, ds, r, hn, hb => by
    rw [preL, List.map_append] at hn hb
    rw [List.mem_append, not_or] at hb
    have hn' := List.nodup_append.mp hn
    rw [visitCL, visitC_spec c (some s) b ds r hn'.1 (.inr hb.1)]
    simp only
    rw [visitCL_spec cs s b _ r hn'.2.1 hb.2, compL, List.append_assoc]
end

theorem remains_none (s : Span) (cs : List (Tree Span)) : remains none s cs = true := rfl

/-- what `compact` returns -/
theorem compact_eq (t : Tree Span) (h : (t.pre.map key).Nodup) :
    compact t = .ok (some (.node (copyOf t.val t.children) (compL t.val t.children))) := by
  obtain ⟨s, cs⟩ := t
  rw [compact, visitC_spec (.node s cs) none {} [] [] h (.inl rfl)]
  simp [topChildren, bottom, Tree.children, compT, remains_none, Tree.val]

theorem databaseOf_eq (s : Span) : databaseOf s = mapGet dbSystemKey s.attrs := rfl

theorem textOf_eq (d : Datum) : textOf d = getString d := by cases d <;> rfl

theorem isLastDb_iff (s : Span) (cs : List (Tree Span)) :
    isLastDb s cs = true ↔ cs = [] ∧ ∃ v, databaseOf s = some v := by
  rw [databaseOf_eq]
  unfold isLastDb
  cases cs with
  | nil => simp [Option.isSome_iff_exists]
  | cons c cs => simp

theorem copyOf_eq (s : Span) (cs : List (Tree Span)) : copyOf s cs = shown s (cs.map Tree.val) := by
  unfold copyOf shown dbSystem
  simp only [databaseOf_eq, textOf_eq]
  cases cs with
  | nil =>
    cases h : mapGet dbSystemKey s.attrs with
    | none => simp [isLastDb, h]
    | some v => simp [isLastDb, h]
  | cons c cs => simp [isLastDb]

theorem remains_iff (path : List Span) (s : Span) (cs : List (Tree Span)) :
    remains path.head? s cs = true ↔ Kept path s (cs.map Tree.val) := by
  unfold remains Kept
  cases path with
  | nil => simp
  | cons p r =>
    simp only [List.head?_cons, ne_eq, List.cons.injEq, reduceCtorEq, false_or, List.map_eq_nil_iff]
    rw [← isLastDb_iff]
    by_cases h : p.service = s.service
    · simp only [h, not_true_eq_false, if_false]
      constructor
      · exact fun h => .inr h
      · rintro (⟨p', r', ⟨rfl, rfl⟩, h'⟩ | h')
        · exact absurd h h'
        · exact h'
    · simp only [h, not_false_eq_true, if_true, true_iff]
      exact .inl ⟨p, r, ⟨rfl, rfl⟩, h⟩

open Classical in
/-- the expected nodes of the compacted tree, with ancestors -/
noncomputable def expectedNodes (nodes : List (List Span × Span × List Span)) :
    List (List Span × Span) :=
  nodes.filterMap (fun n =>
    if Kept n.1 n.2.1 n.2.2 then some (keptAncestors n.1, shown n.2.1 n.2.2) else none)

theorem expectedNodes_append (a b : List (List Span × Span × List Span)) :
    expectedNodes (a ++ b) = expectedNodes a ++ expectedNodes b := by
  simp [expectedNodes]

/-- the ancestors kept on the way to a node with children -/
theorem keptAncestors_cons (path : List Span) (s : Span) (c : Tree Span) (cs : List (Tree Span)) :
    keptAncestors (s :: path) =
      if remains path.head? s (c :: cs) then copyOf s (c :: cs) :: keptAncestors path
      else keptAncestors path := by
  have h1 : copyOf s (c :: cs) = s := by simp [copyOf, isLastDb]
  rw [h1]
  cases path with
  | nil => simp [remains, keptAncestors]
  | cons p r =>
    rw [keptAncestors]
    simp [remains, isLastDb]

mutual
theorem compT_paths : ∀ (t : Tree Span) (path : List Span),
    withPathL (keptAncestors path) (compT path.head? t) = expectedNodes (infoT path t)
  | .node s cs, path => by
    rw [infoT, show (path, s, cs.map Tree.val) :: infoL (s :: path) cs =
      [(path, s, cs.map Tree.val)] ++ infoL (s :: path) cs from rfl, expectedNodes_append]
    by_cases hr : remains path.head? s cs = true
    · have hk := (remains_iff path s cs).mp hr
      rw [compT, if_pos hr, withPathL, withPathL, Tree.withPath, List.append_nil]
      have e1 : expectedNodes [(path, s, cs.map Tree.val)] =
          [(keptAncestors path, copyOf s cs)] := by
        simp [expectedNodes, hk, copyOf_eq]
      rw [e1, List.singleton_append, List.cons.injEq]
      refine ⟨rfl, ?_⟩
      cases cs with
      | nil => simp [compL, withPathL, infoL, expectedNodes]
      | cons c cs =>
        rw [← compL_paths (c :: cs) s path (by simp), keptAncestors_cons path s c cs, if_pos hr]
    · have hk : ¬ Kept path s (cs.map Tree.val) := fun h => hr ((remains_iff path s cs).mpr h)
      rw [compT, if_neg hr]
      have e1 : expectedNodes [(path, s, cs.map Tree.val)] = [] := by
        simp [expectedNodes, hk]
      rw [e1, List.nil_append]
      cases cs with
      | nil => simp [compL, withPathL, infoL, expectedNodes]
      | cons c cs =>
        rw [← compL_paths (c :: cs) s path (by simp), keptAncestors_cons path s c cs, if_neg hr]
theorem compL_paths : ∀ (cs : List (Tree Span)) (s : Span) (path : List Span), cs ≠ [] →
    withPathL (keptAncestors (s :: path)) (compL s cs) = expectedNodes (infoL (s :: path) cs)
  | [], _, _, h => absurd rfl h
  | c :: cs, s, path, _ => by
    rw [compL, infoL, withPathL_append, expectedNodes_append]
    have h1 := compT_paths c (s :: path)
    rw [List.head?_cons] at h1
    rw [h1]
    congr 1
    cases cs with
    | nil => simp [compL, withPathL, infoL, expectedNodes]
    | cons d ds => exact compL_paths (d :: ds) s path (by simp)
end

/-- C29: for a trace with distinct span ids, compaction succeeds and its result has, in order,
exactly the kept spans, each with the kept ones among its ancestors as its ancestors (so it hangs
below the nearest kept one), leaf database spans renamed. -/
theorem C29_compact (t : Tree Span) (h : (t.pre.map key).Nodup) :
    ∃ t', compact t = .ok (some t') ∧ t'.withPath [] = expectedNodes (infoT [] t) := by
  refine ⟨_, compact_eq t h, ?_⟩
  obtain ⟨s, cs⟩ := t
  have := compT_paths (.node s cs) []
  simp only [List.head?_nil, compT, remains_none, if_true, withPathL, List.append_nil,
    keptAncestors] at this
  exact this

/-- C29: the root stays. -/
theorem C29_root_stays (t t' : Tree Span) (h : (t.pre.map key).Nodup)
    (hc : compact t = .ok (some t')) : key t'.val = key t.val := by
  rw [compact_eq t h] at hc
  cases hc
  exact key_copyOf _ _

/-- C29 together with C27: compacting the trees that conversion produces never panics. -/
theorem C29_converted (sort order : List Holder → List Holder) (hs : List Holder)
    (hsort : SortsByStart sort) (horder : ∀ l, (order l).Perm l) (t : Tree Holder)
    (ht : t ∈ toTraceTrees sort order hs) : ∃ t', compact (t.map Holder.span) = .ok (some t') := by
  have hn := C27_once sort order hs hsort horder
  have pre_map : ∀ (g : Holder → Span), (∀ t : Tree Holder, (t.map g).pre = t.pre.map g) := by
    intro g t
    have := congrArg (List.map Prod.snd) (withDepth_map g 0 t)
    rw [withDepth_snd, List.map_map] at this
    rw [this, ← withDepth_snd 0, List.map_map]
    rfl
  have hsub : ∀ (f : List (Tree Holder)) (t : Tree Holder), t ∈ f → t.pre.Sublist (preL f) := by
    intro f
    induction f with
    | nil => intro t ht; cases ht
    | cons a r ih =>
      intro t ht
      rw [preL]
      rcases List.mem_cons.mp ht with rfl | ht
      · exact List.sublist_append_left _ _
      · exact (ih t ht).trans (List.sublist_append_right _ _)
  refine ⟨_, compact_eq _ ?_⟩
  rw [pre_map, List.map_map]
  have h1 : (t.pre.map Holder.id).Nodup := hn.sublist ((hsub _ t ht).map _)
  refine List.Nodup.of_map (fun k : Bytes × Bytes => k.2) ?_
  rw [List.map_map]
  exact h1

/-! ### Concrete traces -/

/-- a span for examples -/
def sp (i : Nat) (service : Str) (db : Option Str) : Span :=
  { traceId := [1], spanId := [i], service := service
    attrs := match db with | none => [] | some d => [(dbSystemKey, .str d)] }

/-- `s` calls itself, which calls `o` twice and a database. -/
def exTrace : Tree Span :=
  .node (sp 1 ['s'] none) [.node (sp 2 ['s'] none)
    [.node (sp 3 ['o'] none) [], .node (sp 4 ['s'] (some ['p', 'g'])) [], .node (sp 5 ['o'] none) []]]

example : (match compact exTrace with
    | .ok (some t) => (t.withPath []).map (fun p => (p.1.map Span.spanId, p.2.spanId, p.2.service))
    | _ => []) =
    [([], [1], ['s']), ([[1]], [3], ['o']), ([[1]], [4], "pg (s)".toList), ([[1]], [5], ['o'])] := by
  decide +kernel

/-- Without distinct ids C29 fails: three spans with the same (empty) ids on one service crash the
compaction. -/
theorem C29_panics_on_equal_ids :
    (match compact (.node {} [.node {} [], .node {} []]) with
      | .error .panic => true
      | _ => false) = true := by decide +kernel

end Verif.Otel
