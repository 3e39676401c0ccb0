import Verif.Lib.Tree
/-!
# Per-table results of a plan tree

`/repo/database/dservice/build_single_table_explain_results.go`.
-/
namespace Verif.SingleTable
open Verif.Lib

/-- Texts. -/
abbrev Str := List Char

/-- What is read of a plan node: `TableName()` and `EstimatedTotalTime()`
(`build_single_table_explain_results.go:5-10`).  It is also what is read of a `singleTableTree`
(12-15): its table and the time of `nodes[0]`; nodes appended later are never read. -/
abbrev Entry (F : Type) := Str × F

/-- nil dereference -/
inductive Err where
  | panic
deriving DecidableEq, Repr

section
variable {F : Type}

/-- `build_single_table_explain_results.go:37-62`: what is appended to `trees` on entering a node,
the new `currentTree` (a pointer, `none` is nil), `isRoot` and `treeUsed`. -/
def enter (n : Entry F) :
    Option (Entry F) → List (Option (Entry F)) × Option (Entry F) × Bool × Bool
  | none => if n.1 ≠ [] then ([], some n, true, false) else ([], none, false, false)
  | some e =>
    if n.1 = e.1 then ([], some e, false, true)
    else if n.1 ≠ [] then ([some e], some n, true, false)
    else ([some e], none, false, false)

mutual
/-- `build_single_table_explain_results.go:34-81` `toSingleTableTreeRecursive`: the pointers
appended to `trees` and the returned flag. -/
def visit : Tree (Entry F) → Option (Entry F) → List (Option (Entry F)) × Bool
  | .node n cs, cur =>
    let (out, cur', isRoot, used) := enter n cur
    if cs.isEmpty && isRoot then (out ++ [cur'], false)
    else
      let (out', used') := visitL isRoot cs cur' used
      (out ++ out', used')
/-- `build_single_table_explain_results.go:69-80`: the loop over the children.  Line 73 appends the
current tree, also when that is nil because an earlier child used it. -/
def visitL (isRoot : Bool) : List (Tree (Entry F)) → Option (Entry F) → Bool →
    List (Option (Entry F)) × Bool
  | [], _, used => ([], used)
  | c :: cs, cur, used =>
    let (out, u) := visit c cur
    if u then
      let (out', used') := visitL isRoot cs none true
      (out ++ ((if isRoot then [cur] else []) ++ out'), used')
    else
      let (out', used') := visitL isRoot cs cur used
      (out ++ out', used')
end

/-- `build_single_table_explain_results.go:24-31`: reading the fields of each tree; a nil pointer
panics. -/
def readAll : List (Option (Entry F)) → Except Err (List (Entry F))
  | [] => .ok []
  | none :: _ => .error .panic
  | some e :: r => match readAll r with
    | .error x => .error x
    | .ok es => .ok (e :: es)

/-- `build_single_table_explain_results.go:19-32` `BuildSingleTableExplainResults` -/
def build (root : Tree (Entry F)) : Except Err (List (Entry F)) := readAll (visit root none).1

end
end Verif.SingleTable
