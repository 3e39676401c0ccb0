import Verif.PgPlan.Props
import Verif.SingleTable.Props
/-!
# C53 from the text of a PostgreSQL plan
-/
namespace Verif.SingleTable
open Verif.Lib

/-- The plan nodes as `BuildSingleTableExplainResults` sees them
(`/repo/database/postgres/pmodel/explain_analyze_tree.go:14-16`,
`explain_analyze_tree_node.go`: table name and time of the node). -/
def pgResults {F : Type} (pf : Str → Option F) (zero : F) (lines : List Str) :
    Option (Except Err (List (Entry F))) :=
  match PgPlan.collect pf lines with
  | .error _ => none
  | .ok (t, _) => some (build (t.map (fun n => (n.2.tableName, n.2.estimatedTotalTime zero))))

mutual
theorem pre_map {α β : Type} (g : α → β) : ∀ t : Tree α, (t.map g).pre = t.pre.map g
  | .node a cs => by rw [Tree.map, Tree.pre, Tree.pre, List.map_cons, preL_mapL g cs]
theorem preL_mapL {α β : Type} (g : α → β) : ∀ cs : List (Tree α), preL (mapL g cs) = (preL cs).map g
  | [] => rfl
  | c :: cs => by rw [mapL, preL, preL, List.map_append, pre_map g c, preL_mapL g cs]
end

/-- C25, from the text of a PostgreSQL plan: each entry is a node of the parsed plan that names a table, and its time is
the end of the `actual time` range of that node's line, or zero for a node that was never executed. -/
theorem C25_pg_times_partial {F : Type} (pf : Str → Option F) (zero : F) (lines : List Str) (es : List (Entry F))
    (h : pgResults pf zero lines = some (.ok es)) :
    ∃ t rest, PgPlan.collect pf lines = .ok (t, rest) ∧ ∀ e ∈ es, ∃ n ∈ t.pre, e.1 = n.2.tableName ∧ e.1 ≠ [] ∧
      (∀ x, n.2.actualTimeAvg = some x → e.2 = x) ∧ (n.2.actualTimeAvg = none → e.2 = zero) := by
  unfold pgResults at h
  cases hc : PgPlan.collect pf lines with
  | error e => rw [hc] at h; cases h
  | ok p =>
    obtain ⟨t, rest⟩ := p
    rw [hc] at h
    refine ⟨t, rest, rfl, fun e he => ?_⟩
    obtain ⟨h1, h2⟩ := C25_sound_partial _ es (Option.some.inj h) e he
    rw [pre_map] at h1
    obtain ⟨n, hn, rfl⟩ := List.mem_map.mp h1
    refine ⟨n, hn, rfl, h2, ?_, ?_⟩
    · intro x hx
      change n.2.actualTimeAvg.getD zero = x
      rw [hx]; rfl
    · intro hx
      change n.2.actualTimeAvg.getD zero = zero
      rw [hx]; rfl

/-- A join of a scan of `a` and one of `b` that was never executed. -/
def joinPlan : List Str := [
  "Nested Loop  (cost=0.00..9.00 rows=3 width=4) (actual time=0.1..0.9 rows=3 loops=1)".toList,
  "  ->  Seq Scan on a  (cost=1.00..2.00 rows=3 width=4) (actual time=0.1..0.7 rows=3 loops=1)".toList,
  "  ->  Seq Scan on b  (cost=1.00..2.00 rows=3 width=4) (never executed)".toList,
  "Planning Time: 0.1 ms".toList]

example : pgResults (F := Str) some [] joinPlan = some (.ok [("a".toList, "0.7".toList), ("b".toList, [])]) := by
  decide +kernel

/-- A query on `a` with two sub queries in the select list, the first on `a` itself, the second a
sorted one on `b`. -/
def crashPlan : List Str := [
  "Seq Scan on a  (cost=0.00..9.00 rows=3 width=4) (actual time=0.1..0.2 rows=3 loops=1)".toList,
  "  SubPlan 1".toList,
  "    ->  Seq Scan on a a_1  (cost=1.00..2.00 rows=3 width=4)".toList,
  "  SubPlan 2".toList,
  "    ->  Sort  (cost=1.00..2.00 rows=3 width=4)".toList,
  "          Sort Key: b.x".toList,
  "          ->  Seq Scan on b  (cost=1.00..2.00 rows=3 width=4)".toList,
  "Planning Time: 0.1 ms".toList]

/-- C53: the plan above is parsed, and then `ToSingleTableResults` crashes on it.  (No command calls
that exported method at the pinned commit.) -/
theorem C53_panics_on_plan_text :
    pgResults (F := Unit) (fun _ => some ()) () crashPlan = some (.error .panic) := by
  decide +kernel

end Verif.SingleTable
