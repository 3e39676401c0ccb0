import Verif.Client.ExplainChart
import Verif.MysqlPlan.Title
import Verif.MysqlPlan.Nodes
import Verif.MysqlPlan.Numbers
import Verif.PgPlan.Title
import Verif.PgPlan.Props
/-!
# C76 and C77: the plan as shown on the page

The nodes of a plan become view models, the page prints the texts of the nodes below each other
(`/repo/client/src/components/ExplainText.svelte`) and draws a bar for each node
(`/repo/client/src/components/ExplainTree/*.ts`, `Verif.Client.Chart`).
-/
namespace Verif.Client.PlanView
open Verif.Lib

/-! ## Model -/

abbrev Str := List Char

/-- `/repo/html/viewmodel/vm_mysql_explain_analyze_node.go` and `vm_postgres_explain_analyze_node.go`
without the children; the width is of PostgreSQL only.  On the page it is
`/repo/client/src/models/explain_data/MysqlAnalyzeData.ts` or `PostgresAnalyzeData.ts`. -/
structure VmNode (F : Type) where
  text : Str
  title : Str
  tableName : Str
  estimatedInitCost : Option F
  estimatedCost : Option F
  estimatedReturnedRows : Option Int
  estimatedWidth : Option Int
  actualTimeFirstRow : Option F
  actualTimeAvg : Option F
  actualReturnedRows : Option Int
  actualLoopCount : Option Int
deriving DecidableEq

/-- `/repo/database/mysql/mmodel/explain_analyze_tree_node.go:14-25` -/
def vmLine {F : Type} (l : MysqlPlan.Line F) : VmNode F where
  text := l.text
  title := MysqlPlan.title l.text
  tableName := l.tableName
  estimatedInitCost := l.estimatedInitCost
  estimatedCost := l.estimatedCost
  estimatedReturnedRows := l.estimatedReturnedRows
  estimatedWidth := none
  actualTimeFirstRow := l.actualTimeFirstRow
  actualTimeAvg := l.actualTimeAvg
  actualReturnedRows := l.actualReturnedRows
  actualLoopCount := l.actualLoopCount

/-- `/repo/database/postgres/pmodel/explain_analyze_tree_node.go:15-29` -/
def vmPNode {F : Type} (n : PgPlan.PNode F) : VmNode F where
  text := PgPlan.joinLines n.2.lines
  title := PgPlan.title n.2.lines
  tableName := n.2.tableName
  estimatedInitCost := n.2.estimatedInitCost
  estimatedCost := n.2.estimatedCost
  estimatedReturnedRows := n.2.estimatedReturnedRows
  estimatedWidth := n.2.estimatedWidth
  actualTimeFirstRow := n.2.actualTimeFirstRow
  actualTimeAvg := n.2.actualTimeAvg
  actualReturnedRows := n.2.actualReturnedRows
  actualLoopCount := n.2.actualLoopCount

mutual
/-- the recursion over the children in `explain_analyze_tree_node.go:26-28` (MySQL) and `30-32`
(PostgreSQL); `conv` makes the record of one node. -/
def toViewModel {α V : Type} (conv : α → V) : Tree α → Tree V
  | .node a cs => .node (conv a) (toViewModels conv cs)
/-- the loop there, and in `explain_analyze_tree.go:17-23` of either package -/
def toViewModels {α V : Type} (conv : α → V) : List (Tree α) → List (Tree V)
  | [] => []
  | t :: ts => toViewModel conv t :: toViewModels conv ts
end

/-- what the page is given of a MySQL plan: `/repo/database/mysql/mmodel/explain_analyze_tree.go:17-23` -/
def mysqlNodes {F : Type} (t : Tree (MysqlPlan.Line F)) : List (Tree (VmNode F)) :=
  toViewModels vmLine t.children
/-- `/repo/database/postgres/pmodel/explain_analyze_tree.go:18-24` -/
def pgNodes {F : Type} (t : Tree (PgPlan.PNode F)) : List (Tree (VmNode F)) :=
  toViewModels vmPNode t.children

section
variable {D : Type}

/-- `ExplainText.svelte:19-21`: push the children, the last one first; the top of the stack is the head
of the list -/
def pushChildren (cs st : List (Tree (Nat × D))) : List (Tree (Nat × D)) :=
  cs.reverse.foldl (fun s c => c :: s) st

theorem pushChildren_eq (cs st : List (Tree (Nat × D))) : pushChildren cs st = cs ++ st := by
  unfold pushChildren
  rw [List.foldl_reverse]
  induction cs with
  | nil => rfl
  | cons c cs ih => rw [List.foldr_cons, ih]; rfl

/-- `ExplainText.svelte:16-27`: the inner loop.  A node is an object with its identity (the number);
`visited.includes` compares identities.  The list is `current` followed by the stack.  Answer: the
identities in `visited` and the nodes in `res`. -/
def walk (visited : List Nat) (res : List D) : List (Tree (Nat × D)) → List Nat × List D
  | [] => (visited, res)
  | .node a cs :: st =>
    if a.1 ∈ visited then walk (visited ++ [a.1]) res st
    else walk (visited ++ [a.1]) (res ++ [a.2]) (pushChildren cs st)
termination_by l => (preL l).length
decreasing_by
  · simp [preL, Tree.pre]; omega
  · rw [pushChildren_eq, preL_append]; simp [preL, Tree.pre]

/-- `ExplainText.svelte:13-28`: the loop over the roots; `current` and the only element of the stack are
both the root. -/
def walkAll (visited : List Nat) (res : List D) : List (Tree (Nat × D)) → List D
  | [] => res
  | t :: ts =>
    let r := walk visited res [t, t]
    walkAll r.1 r.2 ts

/-- `ExplainText.svelte:10-30`: the printed texts -/
def texts (text : D → Str) (nodes : List (Tree (Nat × D))) : List Str :=
  (walkAll [] [] nodes).map text

end

/-- `ExplainText.svelte:33-36`: every text with its boldness; `hi` is `$highlightIndex`, `none` until
the mouse is over a bar (`/repo/client/src/contexts/HighlightIndexContext.ts`). -/
def lines (hi : Option Nat) (ts : List Str) : List (Bool × Str) :=
  ts.zipIdx.map (fun p => (hi == some p.2, p.1))

/-- `ExplainAnalyzeChart.svelte:20-24`: the mouse enters a bar; `prop` belongs to the series. -/
def onEnter {D F : Type} (r : Chart.Row D F) : Option Nat := some r.x
/-- `/repo/client/src/components/ExplainTree/ExplainTreeChart.ts:113-124`: the label on a bar -/
def barLabel {F G : Type} (r : Chart.Row (VmNode F) G) : Str := r.data.title

/-- what the page computes with -/
structure Num (F : Type) where
  ops : MysqlPlan.FloatOps F
  add : F → F → F

/-- `/repo/client/src/models/explain_data/MysqlAnalyzeData.ts:13-26` `calculateEndTime`; `null > 1` is
false and `null` counts as 0 in arithmetic but is not `=== 0`. -/
def mysqlEndTime {F : Type} [DecidableEq F] (O : Num F) (d : VmNode F) (start : F) : F :=
  if d.actualLoopCount.getD 0 > 1 then
    if d.actualLoopCount.getD 0 > 1000 ∧ d.actualTimeAvg = some O.ops.zero then
      O.add start (O.ops.mul O.ops.tenthMilli (O.ops.ofInt (d.actualLoopCount.getD 0)))
    else O.add start (O.ops.mul (d.actualTimeAvg.getD O.ops.zero) (O.ops.ofInt (d.actualLoopCount.getD 0)))
  else d.actualTimeAvg.getD O.ops.zero
/-- `/repo/client/src/models/explain_data/PostgresAnalyzeData.ts:13-16` -/
def pgEndTime {F : Type} (zero : F) (d : VmNode F) (_start : F) : F := d.actualTimeAvg.getD zero

/-- `/repo/client/src/pages/suggest/postgres/ExplainAnalyzeChart.svelte:64-66`: the time in the
tooltip, `none` for the dash; 0 and `null` are falsy. -/
def pgTooltipTime {F : Type} [DecidableEq F] (zero : F) (d : VmNode F) : Option (F × Option F) :=
  match d.actualTimeFirstRow with
  | none => none
  | some a => if a = zero then none else some (a, d.actualTimeAvg)

/-! ## Specification -/

/-- the texts printed in bold -/
def boldOnes (ls : List (Bool × Str)) : List Str := (ls.filter (·.1)).map (·.2)

/-- every object of the forest is a different one, as after reading JSON -/
def DistinctObjects {D : Type} (nodes : List (Tree (Nat × D))) : Prop := ((preL nodes).map (·.1)).Nodup

/-! ## Proofs -/

mutual
theorem preL_map {α β : Type} (g : α → β) : ∀ t : Tree α, (t.map g).pre = t.pre.map g
  | .node a cs => by rw [Tree.map, Tree.pre, Tree.pre, List.map_cons, preL_mapL g cs]
theorem preL_mapL {α β : Type} (g : α → β) : ∀ ts : List (Tree α), preL (mapL g ts) = (preL ts).map g
  | [] => by simp [mapL, preL]
  | t :: ts => by rw [mapL, preL, preL, List.map_append, preL_map g t, preL_mapL g ts]
end

mutual
theorem toViewModel_eq {α V : Type} (conv : α → V) : ∀ t : Tree α, toViewModel conv t = t.map conv
  | .node a cs => by rw [toViewModel, Tree.map, toViewModels_eq conv cs]
theorem toViewModels_eq {α V : Type} (conv : α → V) : ∀ ts : List (Tree α),
    toViewModels conv ts = mapL conv ts
  | [] => by simp [toViewModels, mapL]
  | t :: ts => by rw [toViewModels, mapL, toViewModel_eq conv t, toViewModels_eq conv ts]
end

section
variable {D : Type}

mutual
theorem walk_tree : ∀ (t : Tree (Nat × D)) (v : List Nat) (r : List D) (rest : List (Tree (Nat × D))),
    (t.pre.map (·.1)).Nodup → (∀ a ∈ t.pre, a.1 ∉ v) →
    walk v r (t :: rest) = walk (v ++ t.pre.map (·.1)) (r ++ t.pre.map (·.2)) rest
  | .node a cs, v, r, rest, hn, hd => by
    rw [Tree.pre, List.map_cons, List.nodup_cons] at hn
    rw [walk, if_neg (hd a (by simp [Tree.pre])), pushChildren_eq,
      walk_list cs (v ++ [a.1]) (r ++ [a.2]) rest hn.2 (by
        intro b hb hbv
        rcases List.mem_append.mp hbv with h | h
        · exact hd b (by simp [Tree.pre, hb]) h
        · rw [List.mem_singleton] at h
          exact hn.1 (h ▸ List.mem_map_of_mem hb))]
    simp only [Tree.pre, List.map_cons, List.append_assoc, List.singleton_append]
theorem walk_list : ∀ (ts : List (Tree (Nat × D))) (v : List Nat) (r : List D)
    (rest : List (Tree (Nat × D))),
    ((preL ts).map (·.1)).Nodup → (∀ a ∈ preL ts, a.1 ∉ v) →
    walk v r (ts ++ rest) = walk (v ++ (preL ts).map (·.1)) (r ++ (preL ts).map (·.2)) rest
  | [], v, r, rest, _, _ => by simp [preL]
  | t :: ts, v, r, rest, hn, hd => by
    rw [preL, List.map_append, List.nodup_append] at hn
    obtain ⟨h1, h2, h3⟩ := hn
    rw [List.cons_append, walk_tree t v r _ h1 (fun a ha => hd a (by simp [preL, ha])),
      walk_list ts _ _ rest h2 (by
        intro a ha hav
        rcases List.mem_append.mp hav with h | h
        · exact hd a (by simp [preL, ha]) h
        · exact h3 a.1 h a.1 (List.mem_map_of_mem ha) rfl)]
    simp only [preL, List.map_append, List.append_assoc]
end

theorem walkAll_pre (ts : List (Tree (Nat × D))) : ∀ (v : List Nat) (r : List D),
    ((preL ts).map (·.1)).Nodup → (∀ a ∈ preL ts, a.1 ∉ v) →
    walkAll v r ts = r ++ (preL ts).map (·.2) := by
  induction ts with
  | nil => intro v r _ _; simp [walkAll, preL]
  | cons t ts ih =>
    intro v r hn hd
    rw [preL, List.map_append, List.nodup_append] at hn
    obtain ⟨h1, h2, h3⟩ := hn
    have hw := walk_tree t v r [t] h1 (fun a ha => hd a (by simp [preL, ha]))
    have hlast : walk v r [t, t] =
        (v ++ t.pre.map (·.1) ++ [t.val.1], r ++ t.pre.map (·.2)) := by
      rw [hw]
      cases t with
      | node a cs =>
        rw [walk, if_pos (by simp [Tree.pre]), walk]
        rfl
    rw [walkAll]
    simp only [hlast]
    rw [ih _ _ h2]
    · simp only [preL, List.map_append, List.append_assoc]
    · intro a ha hav
      rcases List.mem_append.mp hav with h | h
      · rcases List.mem_append.mp h with h | h
        · exact hd a (by simp [preL, ha]) h
        · exact h3 a.1 h a.1 (List.mem_map_of_mem ha) rfl
      · rw [List.mem_singleton] at h
        have : t.val.1 ∈ t.pre.map (·.1) := by
          cases t with
          | node b cs => simp [Tree.pre, Tree.val]
        exact h3 _ this a.1 (List.mem_map_of_mem ha) h.symm

/-- C76: the page prints the text of every node exactly once, parents before their children and
siblings in order, however the plan is shaped (equal nodes are different objects). -/
theorem C76_texts (text : D → Str) (nodes : List (Tree (Nat × D))) (hn : DistinctObjects nodes) :
    texts text nodes = (preL (mapL (·.2) nodes)).map text := by
  unfold texts
  rw [walkAll_pre nodes [] [] hn (by simp), List.nil_append, preL_mapL]

end

theorem zipIdx_filter {α : Type} (l : List α) : ∀ (k n : Nat),
    ((l.zipIdx k).filter (fun p => p.2 == n)).map (·.1) =
      if k ≤ n then l[n - k]?.toList else [] := by
  induction l with
  | nil => intro k n; simp
  | cons a l ih =>
    intro k n
    rw [List.zipIdx_cons, List.filter_cons]
    by_cases h : k = n
    · subst h
      simp [ih]
    · rw [if_neg (by simpa using h), ih]
      by_cases hk : k ≤ n
      · rw [if_pos hk, if_pos (by omega), show n - k = (n - (k + 1)) + 1 by omega]
        simp
      · rw [if_neg hk, if_neg (by omega)]

theorem bold_at (ts : List Str) (n : Nat) : boldOnes (lines (some n) ts) = ts[n]?.toList := by
  have := zipIdx_filter ts 0 n
  simp only [Nat.zero_le, if_true, Nat.sub_zero] at this
  rw [← this, boldOnes, lines, List.filter_map, List.map_map]
  congr 1
  apply List.filter_congr
  intro p _
  show (some n == some p.2) = (p.2 == n)
  rw [Bool.eq_iff_iff, beq_iff_eq, beq_iff_eq, Option.some.injEq]
  exact eq_comm

/-- C76: moving the mouse over any bar of the chart makes exactly one line of the text bold, that of
the node of the bar; before that nothing is bold. -/
theorem C76_hover {F G : Type} [LinearOrder G] [Zero G] (endOf : VmNode F → G → G) (minus : G → G)
    (sort : List (Chart.Row (VmNode F) G) → List (Chart.Row (VmNode F) G)) (hs : Chart.SortsByX sort)
    (nodes : List (Tree (Nat × VmNode F))) (hn : DistinctObjects nodes) :
    boldOnes (lines none (texts (·.text) nodes)) = [] ∧
    ∃ bars, Chart.seriesData endOf minus sort (mapL (·.2) nodes) = some bars ∧
      bars.map (fun r => r.data.text) = texts (·.text) nodes ∧
      ∀ r ∈ bars, boldOnes (lines (onEnter r) (texts (·.text) nodes)) = [r.data.text] := by
  constructor
  · unfold boldOnes lines
    rw [List.filter_map, List.map_map, List.map_eq_nil_iff, List.filter_eq_nil_iff]
    simp
  · obtain ⟨rs, h1, _, h3, h4⟩ := Chart.C46_rows endOf minus sort hs (mapL (·.2) nodes)
    have ht : (preL rs).map (fun r => r.data.text) = texts (·.text) nodes := by
      rw [C76_texts _ _ hn, ← h1, preL_mapL, List.map_map]
      rfl
    refine ⟨_, h4, ht, ?_⟩
    intro r hr
    rw [onEnter, bold_at]
    obtain ⟨i, hi, e⟩ := List.getElem_of_mem hr
    have hx : r.x = i := by
      have := congrArg (fun l => l[i]?) h3
      simp only [List.getElem?_map] at this
      rw [List.getElem?_eq_getElem hi, e] at this
      have hlen : i < (preL (mapL (·.2) nodes)).length := by
        have := congrArg List.length h3
        simp at this
        omega
      rw [List.getElem?_range hlen] at this
      simpa using this
    rw [hx, ← ht, List.getElem?_map, List.getElem?_eq_getElem hi, e]
    rfl

/-- C76: the page of a MySQL plan prints the lines of `EXPLAIN ANALYZE` as they were, without the
empty ones, and the label of each bar is the label of its line. -/
theorem C76_mysql_page {F G : Type} [LinearOrder G] [Zero G] (pf : Str → Option F) (text : Str)
    (t : Tree (MysqlPlan.Line F)) (h : MysqlPlan.buildExplainNode pf text = .ok t)
    (endOf : VmNode F → G → G) (minus : G → G)
    (sort : List (Chart.Row (VmNode F) G) → List (Chart.Row (VmNode F) G)) (hs : Chart.SortsByX sort)
    (nodes : List (Tree (Nat × VmNode F))) (hn : DistinctObjects nodes)
    (hv : mapL (·.2) nodes = mysqlNodes t) :
    texts (·.text) nodes = MysqlPlan.planLines text ∧
    ∃ bars, Chart.seriesData endOf minus sort (mysqlNodes t) = some bars ∧
      bars.map (fun r => (barLabel r, r.data.text)) =
        (MysqlPlan.planLines text).map (fun l => (MysqlPlan.title l, l)) := by
  have hl : (preL t.children).map (·.text) = MysqlPlan.planLines text := by
    have := congrArg (fun l => l.map (·.2)) (MysqlPlan.C21_textual_order_and_depth pf text t h)
    simp only [List.map_map] at this
    have h2 : (withDepthL 0 t.children).map ((fun x => x.2) ∘ fun p : Nat × MysqlPlan.Line F => (p.1, p.2.text)) =
        ((withDepthL 0 t.children).map (·.2)).map (·.text) := by rw [List.map_map]; rfl
    rw [h2, withDepthL_snd] at this
    rw [this]
    exact List.map_id' _
  constructor
  · rw [C76_texts _ _ hn, hv, mysqlNodes, toViewModels_eq, preL_mapL, List.map_map, ← hl]
    rfl
  · obtain ⟨rs, h1, _, _, h4⟩ := Chart.C46_rows endOf minus sort hs (mysqlNodes t)
    refine ⟨_, h4, ?_⟩
    have : (preL rs).map (·.data) = (preL t.children).map vmLine := by
      rw [← preL_mapL, h1, mysqlNodes, toViewModels_eq, preL_mapL]
    have e : (preL rs).map (fun r => (barLabel r, r.data.text)) =
        ((preL rs).map (·.data)).map (fun d => (d.title, d.text)) := by
      rw [List.map_map]; rfl
    rw [e, this, List.map_map, ← hl, List.map_map]
    rfl

theorem joinLines_append (a b : List Str) (ha : a ≠ []) (hb : b ≠ []) :
    PgPlan.joinLines (a ++ b) = PgPlan.joinLines a ++ '\n' :: PgPlan.joinLines b := by
  induction a with
  | nil => exact absurd rfl ha
  | cons x a ih =>
    cases a with
    | nil =>
      cases b with
      | nil => exact absurd rfl hb
      | cons y b => rfl
    | cons y a =>
      have h1 : PgPlan.joinLines (x :: y :: a) = x ++ '\n' :: PgPlan.joinLines (y :: a) := rfl
      have h2 : PgPlan.joinLines (x :: y :: a ++ b) = x ++ '\n' :: PgPlan.joinLines (y :: a ++ b) := rfl
      rw [h2, ih (by simp), h1, List.append_assoc]
      rfl

theorem joinLines_flatten (gs : List (List Str)) (h : ∀ g ∈ gs, g ≠ []) :
    PgPlan.joinLines (gs.map PgPlan.joinLines) = PgPlan.joinLines gs.flatten := by
  induction gs with
  | nil => rfl
  | cons g gs ih =>
    cases gs with
    | nil => simp [PgPlan.joinLines]
    | cons g2 gs =>
      have hne : (g2 :: gs).flatten ≠ [] := by
        have := h g2 (by simp)
        intro e
        simp only [List.flatten_cons, List.append_eq_nil_iff] at e
        exact this e.1
      rw [List.flatten_cons, joinLines_append _ _ (h g (by simp)) hne,
        ← ih (fun x hx => h x (by simp [hx])), List.map_cons, List.map_cons]
      rfl

/-- C76: the page of a PostgreSQL plan with a summary prints the lines of `EXPLAIN` before the summary
as they were, then the summary; the label of each bar is the label of its node. -/
theorem C76_pg_page_partial {F G : Type} [LinearOrder G] [Zero G] (pf : Str → Option F) (pre : List Str) (s : Str)
    (post : List Str) (t : Tree (PgPlan.PNode F)) (summary : Str) (hne : pre ≠ [])
    (hpre : ∀ l ∈ pre, ¬ PgPlan.SummaryRow l) (hsum : PgPlan.SummaryRow s)
    (h : PgPlan.collect pf (pre ++ s :: post) = .ok (t, summary))
    (endOf : VmNode F → G → G) (minus : G → G)
    (sort : List (Chart.Row (VmNode F) G) → List (Chart.Row (VmNode F) G)) (hs : Chart.SortsByX sort)
    (nodes : List (Tree (Nat × VmNode F))) (hn : DistinctObjects nodes)
    (hv : mapL (·.2) nodes = pgNodes t) :
    PgPlan.joinLines (texts (·.text) nodes) = PgPlan.joinLines pre ∧
    summary = PgPlan.joinLines (s :: post) ∧
    ∃ bars, Chart.seriesData endOf minus sort (pgNodes t) = some bars ∧
      bars.map (fun r => (barLabel r, r.data.text)) =
        (preL t.children).map (fun n => (PgPlan.title n.2.lines, PgPlan.joinLines n.2.lines)) := by
  obtain ⟨hk, hsm⟩ := PgPlan.C24_tree_keeps_all_lines_partial pf pre s post t summary hne hpre hsum h
  obtain ⟨ns, hns, _, hpath, hlines, _, _⟩ := PgPlan.C23_tree_follows_indentation pf _ t summary h
  refine ⟨?_, hsm, ?_⟩
  · rw [C76_texts _ _ hn, hv, pgNodes, toViewModels_eq, preL_mapL, List.map_map]
    have e : (preL t.children).map ((fun x : VmNode F => x.text) ∘ vmPNode) =
        ((preL t.children).map (fun n => n.2.lines)).map PgPlan.joinLines := by
      rw [List.map_map]; rfl
    rw [e, joinLines_flatten]
    · rw [← List.flatMap_def, hk]
    · have hl : (preL t.children).map (fun n => n.2.lines) =
          (PgPlan.groupToPlanLineNodes (pre ++ s :: post)).1 := by
        rw [← hlines]
        congr 1
        rw [← withPathL_snd [PgPlan.rootNode], hpath]
        have : ∀ (l : List (PgPlan.PNode F)) (earlier : List (PgPlan.PNode F)),
            (PgPlan.expectedPaths (·.1) earlier l).map (·.2) = l := by
          intro l
          induction l with
          | nil => intro e; rfl
          | cons n r ih => intro e; rw [PgPlan.expectedPaths, List.map_cons, ih]
        exact this ns _
      rw [hl]
      intro g hg e
      have := PgPlan.C24_node_shape _ g hg
      rw [e] at this
      rcases this with ⟨_, _, e2, _⟩ | ⟨_, _, _, e2, _⟩ <;> cases e2
  · obtain ⟨rs, h1, _, _, h4⟩ := Chart.C46_rows endOf minus sort hs (pgNodes t)
    refine ⟨_, h4, ?_⟩
    have : (preL rs).map (·.data) = (preL t.children).map vmPNode := by
      rw [← preL_mapL, h1, pgNodes, toViewModels_eq, preL_mapL]
    have e : (preL rs).map (fun r => (barLabel r, r.data.text)) =
        ((preL rs).map (·.data)).map (fun d => (d.title, d.text)) := by
      rw [List.map_map]; rfl
    rw [e, this, List.map_map]
    rfl

/-! ## C77 -/

section
variable {F : Type} (pf : Str → Option F)

/-- a line has both average time and loops, or neither -/
theorem parse_actual (line : Str) (nest : Nat) (l : MysqlPlan.Line F)
    (h : MysqlPlan.parseLine pf line = .ok (nest, l)) :
    (l.actualTimeAvg = none ∧ l.actualLoopCount = none) ∨
      ∃ a, ∃ n : Nat, l.actualTimeAvg = some a ∧ l.actualLoopCount = some (n : Int) := by
  unfold MysqlPlan.parseLine at h
  obtain ⟨l1, h1, h⟩ := MysqlPlan.bind_ok h
  obtain ⟨l2, h2, h⟩ := MysqlPlan.bind_ok h
  cases h
  obtain ⟨_, e2, _, e4, _⟩ := MysqlPlan.addEstimation_other pf line _ l1 h1
  unfold MysqlPlan.addActual at h2
  split at h2
  · cases h2
    exact .inl ⟨e2, e4⟩
  · obtain ⟨_, _, h2⟩ := MysqlPlan.bind_ok h2
    obtain ⟨a, _, h2⟩ := MysqlPlan.bind_ok h2
    obtain ⟨_, _, h2⟩ := MysqlPlan.bind_ok h2
    obtain ⟨n, hn, h2⟩ := MysqlPlan.bind_ok h2
    cases h2
    unfold MysqlPlan.parseInt at hn
    split at hn
    · cases hn
      exact .inr ⟨a, _, rfl, rfl⟩
    · cases hn

/-- C77: on the chart a line of a MySQL plan that ran more than once takes as long, from the end of what
it waits for, as the tool reckons for the ranking of tables (`EstimatedTotalTime`); one that ran once
ends at that time; one that did not run ends at 0. -/
theorem C77_mysql_end [DecidableEq F] (O : Num F) (text : Str) (t : Tree (MysqlPlan.Line F))
    (h : MysqlPlan.buildExplainNode pf text = .ok t) (l : MysqlPlan.Line F) (hl : l ∈ preL t.children)
    (h1 : ∀ x, O.ops.mul x (O.ops.ofInt 1) = x) (start : F) :
    (∀ n, l.actualLoopCount = some n → 1 < n →
      mysqlEndTime O (vmLine l) start = O.add start (l.estimatedTotalTime O.ops)) ∧
    (l.actualLoopCount = some 1 → mysqlEndTime O (vmLine l) start = l.estimatedTotalTime O.ops) ∧
    (l.actualLoopCount = none → mysqlEndTime O (vmLine l) start = O.ops.zero) := by
  obtain ⟨_, hp⟩ := MysqlPlan.C21_node_of_line pf text t h l hl
  have ha := parse_actual pf _ _ _ hp
  refine ⟨?_, ?_, ?_⟩
  · intro n hn hgt
    rcases ha with ⟨_, e⟩ | ⟨a, m, ea, em⟩
    · rw [hn] at e; cases e
    · unfold mysqlEndTime MysqlPlan.Line.estimatedTotalTime
      simp only [vmLine, hn, ea, Option.getD_some, Option.some.injEq]
      rw [if_pos hgt]
      by_cases hz : a = O.ops.zero
      · by_cases hk : n > 1000
        · rw [if_pos ⟨hk, hz⟩, if_pos ⟨hz, hk⟩]
        · rw [if_neg (fun h => hk h.1), if_neg (fun h => hk h.2)]
      · rw [if_neg (fun h => hz h.2), if_neg (fun h => hz h.1)]
  · intro hn
    unfold mysqlEndTime MysqlPlan.Line.estimatedTotalTime
    simp only [vmLine, hn, Option.getD_some]
    rw [if_neg (by omega), if_neg (by omega), h1]
  · intro hn
    rcases ha with ⟨e, _⟩ | ⟨a, m, ea, em⟩
    · unfold mysqlEndTime
      simp [vmLine, hn, e]
    · rw [hn] at em; cases em

/-- C77: for PostgreSQL the end of the bar is the time the tool reckons with, whatever the loops. -/
theorem C77_pg_end (zero : F) (n : PgPlan.PNode F) (start : F) :
    pgEndTime zero (vmPNode n) start = n.2.estimatedTotalTime zero := rfl

/-- C77: the tooltip of a PostgreSQL node shows the two times if the node ran and its first row did not
come at time 0; a node that did not run has a dash. -/
theorem C77_pg_tooltip_partial [DecidableEq F] (zero : F) (n : PgPlan.PNode F) :
    (∀ a, n.2.actualTimeFirstRow = some a → a ≠ zero →
      pgTooltipTime zero (vmPNode n) = some (a, n.2.actualTimeAvg)) ∧
    (n.2.actualTimeFirstRow = none → pgTooltipTime zero (vmPNode n) = none) := by
  constructor
  · intro a ha hz
    unfold pgTooltipTime
    simp only [vmPNode, ha]
    rw [if_neg hz]
  · intro hn
    unfold pgTooltipTime
    simp only [vmPNode, hn]

end

/-- a reader of decimals, in thousandths -/
def millis (s : Str) : Option Nat := some (Regex.digitsVal (s.filter (· ≠ '.')))

/-- a node for the following -/
def zeroRow : List Str :=
  ["Result  (cost=0.00..0.01 rows=1 width=4) (actual time=0.000..0.005 rows=1 loops=1)".toList]

/-- C77 fails for the tooltip: a node that ran for 5 microseconds, with its first row at `0.000`, has the
dash of a node that did not run. -/
theorem C77_pg_tooltip_fails : ∃ (g : List Str) (k : Int) (n : PgPlan.Node Nat),
    PgPlan.parseNode millis g = .ok (k, n) ∧ n.actualTimeAvg = some 5 ∧ n.actualLoopCount = some 1 ∧
      pgTooltipTime 0 (vmPNode (k, n)) = none := by
  have h : (match PgPlan.parseNode millis zeroRow with
      | .ok (k, n) => decide (n.actualTimeAvg = some 5 ∧ n.actualLoopCount = some 1 ∧
          pgTooltipTime 0 (vmPNode (k, n)) = none)
      | .error _ => false) = true := by decide +kernel
  cases e : PgPlan.parseNode millis zeroRow with
  | error x => rw [e] at h; cases h
  | ok p =>
    obtain ⟨k, n⟩ := p
    rw [e] at h
    exact ⟨_, k, n, e, of_decide_eq_true h⟩

/-! ## Concrete cases -/

/-- a node for examples -/
def vmx (s : String) : VmNode Nat := ⟨s.toList, s.toList, [], none, none, none, none, none, none, none, none⟩

/-- two equal texts under one root and a second root -/
def exNodes : List (Tree (Nat × VmNode Nat)) :=
  [.node (0, vmx "a") [.node (1, vmx "b") [.node (2, vmx "c") []], .node (3, vmx "b") []], .node (4, vmx "d") []]

example : DistinctObjects exNodes := by unfold DistinctObjects; decide +kernel
example : preL (mapL (·.2) exNodes) = [vmx "a", vmx "b", vmx "c", vmx "b", vmx "d"] := by decide +kernel
/-- the third bar is `c`, and only that line becomes bold -/
example : boldOnes (lines (some 2) (["a", "b", "c", "b", "d"].map String.toList)) = ["c".toList] := by
  decide +kernel
/-- numbers in thousandths for examples -/
def exNum : Num Nat := ⟨⟨0, 1, Int.toNat, (· * ·)⟩, (· + ·)⟩
/-- a line with 2000 loops too short to measure -/
example : (match MysqlPlan.parseLine millis
      "    -> Index lookup on a  (cost=0.25 rows=1) (actual time=0.000..0.000 rows=1 loops=2000)".toList with
    | .ok (_, l) => mysqlEndTime exNum (vmLine l) 7 | .error _ => 0) = 2007 := by decide +kernel

end Verif.Client.PlanView
