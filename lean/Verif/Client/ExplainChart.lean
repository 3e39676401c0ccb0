import Mathlib.Order.Defs.LinearOrder
import Mathlib.Order.Lattice
import Mathlib.Data.Int.Order.Basic
import Verif.Common
import Verif.Lib.Tree
import Verif.Lib.Map
/-!
# C46: the chart of a plan

`/repo/client/src/components/ExplainTree/ExplainTree.ts`
-/
namespace Verif.Client.Chart
open Verif.Lib

/-! ## Model -/

/-- `ExplainTreeSeriesData` as made by `visitAnalyze`, `/repo/client/src/components/ExplainTree/ExplainTree.ts:60-73` -/
structure Row (D F : Type) where
  x : Nat
  data : D
  y0 : F
  y1 : F
  goal : F
deriving DecidableEq

section
variable {D F : Type} [LinearOrder F] [Zero F]

/-- `Math.max(...childrenFinished)` for at least one child -/
def maxAll : F → List F → F
  | a, [] => a
  | a, b :: r => maxAll (max a b) r

/-- `/repo/client/src/components/ExplainTree/ExplainTree.ts:79-96`: `startTime` -/
def startOf : List F → F
  | [] => 0
  | a :: rest => maxAll a rest

mutual
/-- `/repo/client/src/components/ExplainTree/ExplainTree.ts:53-105` `visitAnalyze`.  `endOf` is
`calculateEndTime` of the three kinds of plans (`/repo/client/src/models/explain_data/*.ts`), `minus`
subtracts 0.0001; absent numbers are `null`, which counts as 0, so nothing is `NaN` and the numbers are
linearly ordered.  A node without children has `children: null`, because the Go slice is never
allocated (`/repo/database/mysql/mmodel/explain_analyze_tree_node.go:26-28`).  The record made first is
changed in place at the end; here it is stored again under its number.  Answer: the records, the
`XNumberNode` of the node, the next number and `maxFinished`. -/
def visit (endOf : D → F → F) (minus : F → F) (m : List (Nat × Row D F)) (next : Nat) :
    Tree D → List (Nat × Row D F) × Tree Nat × Nat × F
  | .node d cs =>
    let m1 := mapSet next ⟨next, d, 0, 0, 0⟩ m
    let r := visitAll endOf minus m1 (next + 1) cs
    let start := startOf r.2.2.2
    let endFromData := endOf d start
    let e := max endFromData start
    let m3 := mapSet next ⟨next, d, min start (minus e), e, e⟩ r.1
    (m3, .node next r.2.1, r.2.2.1, max 0 e)
/-- lines 81-93, and 34-45 for the forest -/
def visitAll (endOf : D → F → F) (minus : F → F) (m : List (Nat × Row D F)) (next : Nat) :
    List (Tree D) → List (Nat × Row D F) × List (Tree Nat) × Nat × List F
  | [] => (m, [], next, [])
  | t :: ts =>
    let r := visit endOf minus m next t
    let s := visitAll endOf minus r.1 r.2.2.1 ts
    (s.1, r.2.1 :: s.2.1, s.2.2.1, r.2.2.2 :: s.2.2.2)
end

mutual
/-- `/repo/client/src/components/ExplainTree/ExplainTree.ts:127-137` `getSeriesDataRecursive`; `none`: the
`TypeError` of `getFromX` on a number without record -/
def collect (m : List (Nat × Row D F)) : Tree Nat → Option (List (Row D F))
  | .node x cs => do
    let r ← mapGet x m
    let rs ← collectAll m cs
    return r :: rs
def collectAll (m : List (Nat × Row D F)) : List (Tree Nat) → Option (List (Row D F))
  | [] => some []
  | t :: ts => do
    let a ← collect m t
    let b ← collectAll m ts
    return a ++ b
end

/-- `/repo/client/src/components/ExplainTree/ExplainTree.ts:107-125`: the constructor and
`getSeriesData`; `sort` is `Array.prototype.sort` by `xNum`. -/
def seriesData (endOf : D → F → F) (minus : F → F) (sort : List (Row D F) → List (Row D F))
    (forest : List (Tree D)) : Option (List (Row D F)) :=
  let r := visitAll endOf minus [] 0 forest
  (collectAll r.1 r.2.1).map sort

/-! ## Specification -/

/-- what is known about sorting by number -/
def SortsByX (sort : List (Row D F) → List (Row D F)) : Prop :=
  ∀ l, (sort l).Perm l ∧ (sort l).Pairwise (fun a b => a.x ≤ b.x)

/-- the latest of some times, not before 0 -/
def latest : List F → F
  | [] => 0
  | a :: r => max a (latest r)

/-- a tree of rows with the bars required: a bar begins when the last child has finished (or a little
before its own end) and ends at the time of its node, but not before the last child. -/
inductive Bars (endOf : D → F → F) (minus : F → F) : Tree (Row D F) → Prop where
  | node (r : Row D F) (rs : List (Tree (Row D F))) :
      (∀ c ∈ rs, Bars endOf minus c) →
      r.y1 = max (endOf r.data (latest (rs.map fun c => c.val.y1))) (latest (rs.map fun c => c.val.y1)) →
      r.y0 = min (latest (rs.map fun c => c.val.y1)) (minus r.y1) →
      r.goal = r.y1 →
      Bars endOf minus (.node r rs)

/-! ## Proofs -/

mutual
/-- the rows of a tree -/
def rows (endOf : D → F → F) (minus : F → F) (n : Nat) : Tree D → Tree (Row D F)
  | .node d cs =>
    let rs := rowsL endOf minus (n + 1) cs
    let start := latest (rs.map fun c => c.val.y1)
    let e := max (endOf d start) start
    .node ⟨n, d, min start (minus e), e, e⟩ rs
def rowsL (endOf : D → F → F) (minus : F → F) (n : Nat) : List (Tree D) → List (Tree (Row D F))
  | [] => []
  | t :: ts => rows endOf minus n t :: rowsL endOf minus (n + t.pre.length) ts
end

variable (endOf : D → F → F) (minus : F → F)

theorem latest_nonneg (l : List F) : 0 ≤ latest l := by
  induction l with
  | nil => exact le_refl _
  | cons a l ih => exact le_trans ih (le_max_right _ _)

theorem le_latest (l : List F) (a : F) (h : a ∈ l) : a ≤ latest l := by
  induction l with
  | nil => cases h
  | cons b l ih =>
    rcases List.mem_cons.mp h with rfl | h
    · exact le_max_left _ _
    · exact le_trans (ih h) (le_max_right _ _)

theorem maxAll_latest (a : F) (l : List F) (h : ∀ x ∈ a :: l, 0 ≤ x) :
    maxAll a l = latest (a :: l) := by
  induction l generalizing a with
  | nil =>
    rw [maxAll, latest, latest, max_eq_left (h a (by simp))]
  | cons b l ih =>
    rw [maxAll, ih (max a b)]
    · simp only [latest, max_assoc]
    · intro x hx
      rcases List.mem_cons.mp hx with rfl | hx
      · exact le_trans (h a (by simp)) (le_max_left _ _)
      · exact h x (by simp [hx])

theorem start_latest (l : List F) (h : ∀ x ∈ l, 0 ≤ x) :
    startOf l = latest l := by
  cases l with
  | nil => rfl
  | cons a l => exact maxAll_latest a l h

mutual
theorem rows_nonneg : ∀ (t : Tree D) (n : Nat), 0 ≤ (rows endOf minus n t).val.y1
  | .node d cs, n => by
    rw [rows]
    exact le_trans (latest_nonneg _) (le_max_right _ _)
theorem rowsL_nonneg : ∀ (ts : List (Tree D)) (n : Nat),
    ∀ x ∈ (rowsL endOf minus n ts).map (fun c => c.val.y1), 0 ≤ x
  | [], n => by simp [rowsL]
  | t :: ts, n => by
    rw [rowsL, List.map_cons]
    intro x hx
    rcases List.mem_cons.mp hx with rfl | hx
    · exact rows_nonneg t n
    · exact rowsL_nonneg ts _ x hx
end

mutual
theorem rows_x : ∀ (t : Tree D) (n : Nat),
    (rows endOf minus n t).pre.map (·.x) = List.range' n t.pre.length
  | .node d cs, n => by
    rw [rows]
    simp only [Tree.pre, List.map_cons, List.length_cons, List.range'_succ]
    rw [rowsL_x cs (n + 1)]
theorem rowsL_x : ∀ (ts : List (Tree D)) (n : Nat),
    (preL (rowsL endOf minus n ts)).map (·.x) = List.range' n (preL ts).length
  | [], n => by simp [rowsL, preL]
  | t :: ts, n => by
    rw [rowsL, preL, preL, List.map_append, rows_x t n, rowsL_x ts, List.length_append,
      List.range'_append_1]
end

mutual
theorem rows_map : ∀ (t : Tree D) (n : Nat), (rows endOf minus n t).map (·.data) = t
  | .node d cs, n => by
    rw [rows]
    simp only [Tree.map]
    rw [rowsL_map cs (n + 1)]
theorem rowsL_map : ∀ (ts : List (Tree D)) (n : Nat), mapL (·.data) (rowsL endOf minus n ts) = ts
  | [], n => by simp [rowsL, mapL]
  | t :: ts, n => by rw [rowsL, mapL, rows_map t n, rowsL_map ts]
end

mutual
theorem rows_bars : ∀ (t : Tree D) (n : Nat), Bars endOf minus (rows endOf minus n t)
  | .node d cs, n => by
    rw [rows]
    exact .node _ _ (rowsL_bars cs (n + 1)) rfl rfl rfl
theorem rowsL_bars : ∀ (ts : List (Tree D)) (n : Nat), ∀ c ∈ rowsL endOf minus n ts, Bars endOf minus c
  | [], n => by simp [rowsL]
  | t :: ts, n => by
    rw [rowsL]
    intro c hc
    rcases List.mem_cons.mp hc with e | hc
    · rw [e]; exact rows_bars t n
    · exact rowsL_bars ts _ c hc
end

mutual
/-- `visitAnalyze` makes the rows of the tree, and nothing else -/
theorem visit_spec : ∀ (t : Tree D) (m : List (Nat × Row D F)) (n : Nat),
    (visit endOf minus m n t).2.1 = (rows endOf minus n t).map (·.x) ∧
    (visit endOf minus m n t).2.2.1 = n + t.pre.length ∧
    (visit endOf minus m n t).2.2.2 = (rows endOf minus n t).val.y1 ∧
    (∀ r ∈ (rows endOf minus n t).pre, mapGet r.x (visit endOf minus m n t).1 = some r) ∧
    (∀ k, k < n ∨ n + t.pre.length ≤ k → mapGet k (visit endOf minus m n t).1 = mapGet k m)
  | .node d cs, m, n => by
    obtain ⟨h1, h2, h3, h4, h5⟩ := visitAll_spec cs (mapSet n ⟨n, d, 0, 0, 0⟩ m) (n + 1)
    have hn := rowsL_nonneg endOf minus cs (n + 1)
    rw [visit, rows]
    simp only [h1, h2, h3, start_latest _ hn, Tree.map, Tree.pre, List.length_cons]
    refine ⟨trivial, by omega, ?_, ?_, ?_⟩
    · exact max_eq_right (le_trans (latest_nonneg (F := F) _) (le_max_right _ _))
    · intro r hr
      rw [mapGet_mapSet]
      rcases List.mem_cons.mp hr with rfl | hr
      · rw [if_pos rfl]
      · have hx : r.x ∈ (preL (rowsL endOf minus (n + 1) cs)).map (·.x) := List.mem_map_of_mem hr
        rw [rowsL_x, List.mem_range'_1] at hx
        rw [if_neg (by omega)]
        exact h4 r hr
    · intro k hk
      rw [mapGet_mapSet, if_neg (by omega), h5 k (by omega), mapGet_mapSet, if_neg (by omega)]
theorem visitAll_spec : ∀ (ts : List (Tree D)) (m : List (Nat × Row D F)) (n : Nat),
    (visitAll endOf minus m n ts).2.1 = mapL (·.x) (rowsL endOf minus n ts) ∧
    (visitAll endOf minus m n ts).2.2.1 = n + (preL ts).length ∧
    (visitAll endOf minus m n ts).2.2.2 = (rowsL endOf minus n ts).map (fun c => c.val.y1) ∧
    (∀ r ∈ preL (rowsL endOf minus n ts), mapGet r.x (visitAll endOf minus m n ts).1 = some r) ∧
    (∀ k, k < n ∨ n + (preL ts).length ≤ k → mapGet k (visitAll endOf minus m n ts).1 = mapGet k m)
  | [], m, n => by simp [visitAll, rowsL, mapL, preL]
  | t :: ts, m, n => by
    obtain ⟨h1, h2, h3, h4, h5⟩ := visit_spec t m n
    obtain ⟨g1, g2, g3, g4, g5⟩ := visitAll_spec ts (visit endOf minus m n t).1 (n + t.pre.length)
    rw [visitAll, rowsL]
    simp only [h1, h2, h3, g1, g2, g3, mapL, preL, List.length_append, List.map_cons]
    refine ⟨trivial, by omega, trivial, ?_, ?_⟩
    · intro r hr
      rcases List.mem_append.mp hr with hr | hr
      · have hx : r.x ∈ (rows endOf minus n t).pre.map (·.x) := List.mem_map_of_mem hr
        rw [rows_x, List.mem_range'_1] at hx
        rw [g5 _ (by omega)]
        exact h4 r hr
      · exact g4 r hr
    · intro k hk
      rw [g5 k (by omega), h5 k (by omega)]
end

mutual
theorem collect_rows (m : List (Nat × Row D F)) : ∀ (t : Tree (Row D F)),
    (∀ r ∈ t.pre, mapGet r.x m = some r) → collect m (t.map (·.x)) = some t.pre
  | .node r rs, h => by
    have ih := collectAll_rows m rs (fun x hx => h x (by simp [Tree.pre, hx]))
    rw [Tree.map, collect, h r (by simp [Tree.pre]), ih]
    rfl
theorem collectAll_rows (m : List (Nat × Row D F)) : ∀ (ts : List (Tree (Row D F))),
    (∀ r ∈ preL ts, mapGet r.x m = some r) → collectAll m (mapL (·.x) ts) = some (preL ts)
  | [], _ => by simp [collectAll, mapL, preL]
  | t :: ts, h => by
    have h1 := collect_rows m t (fun x hx => h x (by simp [preL, hx]))
    have h2 := collectAll_rows m ts (fun x hx => h x (by simp [preL, hx]))
    rw [mapL, collectAll, h1, h2]
    rfl
end

/-- rows sorted by strictly increasing numbers are unique -/
theorem sorted_eq (a b : List (Row D F)) (hp : a.Perm b) (ha : a.Pairwise (fun x y => x.x ≤ y.x))
    (hb : b.Pairwise (fun x y => x.x < y.x)) : a = b := by
  have hn : (a.map (·.x)).Nodup := by
    have hb' : (b.map (·.x)).Nodup := by
      rw [List.nodup_iff_pairwise_ne, List.pairwise_map]
      exact hb.imp (fun h => Nat.ne_of_lt h)
    exact (hp.map _).nodup_iff.mpr hb'
  have ha' : a.Pairwise (fun x y => x.x < y.x) := by
    have h2 : a.Pairwise (fun x y => x.x ≠ y.x) := by
      rw [List.nodup_iff_pairwise_ne, List.pairwise_map] at hn
      exact hn
    exact (ha.and h2).imp (fun ⟨h, h'⟩ => Nat.lt_of_le_of_ne h h')
  exact hp.eq_of_pairwise (fun x y _ _ h1 h2 => absurd h1 (Nat.lt_asymm h2)) ha' hb

/-- C46: the series of a plan is the pre-order list of a forest of rows with the same shape and data as
the plan, numbered from 0 without gaps, with the bars required. -/
theorem C46_rows (sort : List (Row D F) → List (Row D F)) (hs : SortsByX sort) (forest : List (Tree D)) :
    ∃ rs : List (Tree (Row D F)), mapL (·.data) rs = forest ∧ (∀ c ∈ rs, Bars endOf minus c) ∧
      (preL rs).map (·.x) = List.range (preL forest).length ∧
      seriesData endOf minus sort forest = some (preL rs) := by
  have hx := rowsL_x endOf minus forest 0
  refine ⟨rowsL endOf minus 0 forest, rowsL_map _ _ _ _, rowsL_bars _ _ _ _, ?_, ?_⟩
  · rw [hx, List.range_eq_range']
  · obtain ⟨h1, _, _, h4, _⟩ := visitAll_spec endOf minus forest [] 0
    unfold seriesData
    simp only
    rw [h1, collectAll_rows _ _ h4, Option.map_some]
    congr 1
    apply sorted_eq _ _ (hs _).1 (hs _).2
    have : ((preL (rowsL endOf minus 0 forest)).map (·.x)).Pairwise (· < ·) := by
      rw [hx]
      exact List.pairwise_lt_range'
    rw [List.pairwise_map] at this
    exact this

mutual
theorem nested_aux : ∀ (t : Tree (Row D F)), Bars endOf minus t → ∀ (path : List (Row D F)),
    (∀ a ∈ path, t.val.y1 ≤ a.y1) → ∀ p ∈ t.withPath path, p.2.y0 ≤ p.2.y1 ∧ ∀ a ∈ p.1, p.2.y1 ≤ a.y1
  | .node r rs, h, path, hp => by
    cases h with
    | node _ _ hc h1 h2 h3 =>
      intro p hm
      rw [Tree.withPath] at hm
      rcases List.mem_cons.mp hm with rfl | hm
      · refine ⟨?_, hp⟩
        simp only
        rw [h2, h1]
        exact le_trans (min_le_left _ _) (le_max_right _ _)
      · refine nestedL_aux rs hc (r :: path) ?_ p hm
        intro c hcm a ha
        have hl : c.val.y1 ≤ r.y1 := by
          rw [h1]
          exact le_trans (le_latest _ _ (List.mem_map_of_mem (f := fun c => c.val.y1) hcm))
            (le_max_right _ _)
        rcases List.mem_cons.mp ha with rfl | ha
        · exact hl
        · exact le_trans hl (hp a ha)
theorem nestedL_aux : ∀ (ts : List (Tree (Row D F))), (∀ c ∈ ts, Bars endOf minus c) →
    ∀ (path : List (Row D F)), (∀ c ∈ ts, ∀ a ∈ path, c.val.y1 ≤ a.y1) →
    ∀ p ∈ withPathL path ts, p.2.y0 ≤ p.2.y1 ∧ ∀ a ∈ p.1, p.2.y1 ≤ a.y1
  | [], _, _, _ => by simp [withPathL]
  | t :: ts, h, path, hp => by
    intro p hm
    rw [withPathL] at hm
    rcases List.mem_append.mp hm with hm | hm
    · exact nested_aux t (h t (by simp)) path (hp t (by simp)) p hm
    · exact nestedL_aux ts (fun c hc => h c (by simp [hc])) path
        (fun c hc => hp c (by simp [hc])) p hm
end

/-- C46: in such a forest no bar ends before it starts, and none ends after the bar of a node above
it. -/
theorem C46_nested (rs : List (Tree (Row D F))) (h : ∀ c ∈ rs, Bars endOf minus c) :
    ∀ p ∈ withPathL [] rs, p.2.y0 ≤ p.2.y1 ∧ ∀ a ∈ p.1, p.2.y1 ≤ a.y1 :=
  nestedL_aux endOf minus rs h [] (by simp)

/-- C46: siblings of one parent start where they like, but their parent's bar starts no later than the
last of them ends. -/
theorem C46_start (r : Row D F) (rs : List (Tree (Row D F))) (h : Bars endOf minus (.node r rs)) :
    r.y0 ≤ latest (rs.map fun c => c.val.y1) := by
  cases h with
  | node _ _ _ _ h2 _ => rw [h2]; exact min_le_left _ _

end

/-- a plan with two roots; times in tenths of milliseconds -/
example : seriesData (D := Int) (F := Int) (fun d _ => d) (· - 1) id
      [.node 10 [.node 3 [], .node 5 [.node 7 []]], .node 2 []] =
    some [⟨0, 10, 7, 10, 10⟩, ⟨1, 3, 0, 3, 3⟩, ⟨2, 5, 6, 7, 7⟩, ⟨3, 7, 0, 7, 7⟩, ⟨4, 2, 0, 2, 2⟩] := by
  decide

end Verif.Client.Chart
